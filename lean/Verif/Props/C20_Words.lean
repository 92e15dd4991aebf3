import Verif.Lemmas.TextRun
import Verif.Spec.TextWords
/-! C20: no text is lost, duplicated, reordered, glued or broken when a paragraph is laid out over any
sequence of rectangles, and every piece keeps its style and ids. -/
namespace Verif
open Spec

theorem wordState_append {W : Type} (a b : List (WTok W)) : wordState (a ++ b) = b.foldl wordStep (wordState a) := by
  simp [wordState]

theorem wordStep_sep_idem {W : Type} (s : List (List W) × List W) :
    wordStep (wordStep s .sep) .sep = wordStep s .sep := by
  unfold wordStep
  by_cases h : s.2.isEmpty <;> simp [h]

theorem wordStep_sep_nil {W : Type} (s : List (List W) × List W) (h : s.2 = []) : wordStep s .sep = s := by
  simp [wordStep, h]

theorem wordStep_sep_snd {W : Type} (s : List (List W) × List W) : (wordStep s .sep).2 = [] := by
  unfold wordStep
  by_cases h : s.2.isEmpty
  · rw [if_pos h]; simpa using h
  · simp [h]

theorem lineToks_eq (l : TLine × Bool) : lineToks l = (pieces l.1.parts).map pieceTok ++ [.sep] := by
  simp [lineToks, pieces, TPart.pieces, List.map_flatMap, Function.comp_def]

/-- the text before word `k` of element `i` -/
def upto (c : List TItem) (i k : Nat) : List (WTok Piece) :=
  (c.take i).flatMap itemToks ++ match c[i]? with
    | some (.text ws look ids) => (ws.take k).map fun w => pieceTok (w, look, ids)
    | _ => []

theorem upto_word {c : List TItem} {i k : Nat} {ws : List Str} {look : TLook} {ids : Option (List Str)} {w : Str}
    (hc : c[i]? = some (.text ws look ids)) (hw : ws[k]? = some w) :
    upto c i (k + 1) = upto c i k ++ [pieceTok (w, look, ids)] := by
  obtain ⟨hk, hw'⟩ := List.getElem?_eq_some_iff.mp hw
  simp only [upto, hc]
  rw [List.take_succ_eq_append_getElem hk, hw']
  simp

theorem take_succ_flatMap {c : List TItem} {i : Nat} {x : TItem} (hc : c[i]? = some x) :
    (c.take (i + 1)).flatMap itemToks = (c.take i).flatMap itemToks ++ itemToks x := by
  obtain ⟨hi, hx⟩ := List.getElem?_eq_some_iff.mp hc
  rw [List.take_succ_eq_append_getElem hi, hx]
  simp

theorem upto_zero (c : List TItem) (i : Nat) : upto c i 0 = (c.take i).flatMap itemToks := by
  unfold upto
  split <;> simp

theorem upto_part {c : List TItem} {i : Nat} {ws : List Str} {look : TLook} {ids : Option (List Str)}
    (hc : c[i]? = some (.text ws look ids)) : upto c (i + 1) 0 = upto c i ws.length := by
  rw [upto_zero, take_succ_flatMap hc]
  simp [upto, hc, itemToks]

theorem upto_skip {c : List TItem} {i : Nat} (hc : c[i]? = some .skip) : upto c (i + 1) 0 = upto c i 0 := by
  rw [upto_zero, upto_zero, take_succ_flatMap hc]
  simp [itemToks]

theorem upto_br {c : List TItem} {i : Nat} (hc : c[i]? = some .br) : upto c (i + 1) 0 = upto c i 0 ++ [.sep] := by
  rw [upto_zero, upto_zero, take_succ_flatMap hc]
  simp [itemToks]

theorem upto_end (c : List TItem) : upto c c.length 0 = c.flatMap itemToks := by
  rw [upto_zero]; simp

/-- a position in the content -/
def ValidPos (c : List TItem) (i k : Nat) : Prop := i ≤ c.length ∧ wordAt (c.drop i) k

theorem validPos_zero (c : List TItem) (i : Nat) (h : i ≤ c.length) : ValidPos c i 0 := by
  refine ⟨h, ?_⟩
  cases c.drop i with
  | nil => rfl
  | cons y l => cases y <;> simp [wordAt]

theorem validPos_word {c : List TItem} {i k : Nat} {ws : List Str} {look : TLook} {ids : Option (List Str)} {w : Str}
    (hc : c[i]? = some (.text ws look ids)) (hw : ws[k]? = some w) : ValidPos c i (k + 1) := by
  obtain ⟨hi, hx⟩ := List.getElem?_eq_some_iff.mp hc
  obtain ⟨hk, _⟩ := List.getElem?_eq_some_iff.mp hw
  refine ⟨by omega, ?_⟩
  rw [List.drop_eq_getElem_cons hi, hx]
  simp only [wordAt]; omega

/-- what is known during a run: `E0` is the text written by the earlier runs -/
structure WInv (cfg : TCfg) (E0 : List (WTok Piece)) (r : RunSt) (i k : Nat) : Prop where
  main : wordState (E0 ++ r.lines.flatMap lineToks ++ (pieces r.cur.parts).map pieceTok ++ (pieces r.cur.next).map pieceTok)
    = wordState (upto cfg.content i k)
  eEnd : (wordState (E0 ++ r.lines.flatMap lineToks)).2 = []
  line : wordState (E0 ++ r.lines.flatMap lineToks) = wordState (upto cfg.content r.pos.partLine r.pos.wordLine)
  lineV : ValidPos cfg.content r.pos.partLine r.pos.wordLine
  added : r.cur.started = true → wordState (E0 ++ r.lines.flatMap lineToks ++ (pieces r.cur.parts).map pieceTok)
    = wordState (upto cfg.content r.pos.partAdded r.pos.wordAdded)
  addedV : r.cur.started = true → ValidPos cfg.content r.pos.partAdded r.pos.wordAdded
  fin : r.pos.finished = false

/-- what is known between two runs -/
structure WPost (cfg : TCfg) (E : List (WTok Piece)) (pos : TPos) : Prop where
  eEnd : (wordState E).2 = []
  last : wordState E = wordState (upto cfg.content pos.lastPart pos.lastWord)
  lastV : ValidPos cfg.content pos.lastPart pos.lastWord
  sync : pos.partLine = pos.lastPart ∧ pos.wordLine = pos.lastWord
  fin : pos.finished = false

theorem pieceTok_blank {p : Piece} (h : strIsSpace p.1 = true) : pieceTok p = .sep := by simp [pieceTok, h]
theorem pieceTok_word {p : Piece} (h : strIsSpace p.1 = false) : pieceTok p = .word p := by simp [pieceTok, h]
theorem blank_isSpace : strIsSpace c!" " = true := by decide

theorem foldl_noBlank (l : List Piece) : ∀ (_ : ∀ t ∈ l, strIsSpace t.1 = false) (s : List (List Piece) × List Piece),
    (l.map pieceTok).foldl wordStep s = (s.1, s.2 ++ l) := by
  induction l with
  | nil => intro _ s; simp
  | cons p l ih =>
    intro h s
    have hp := h p (by simp)
    simp only [List.map_cons, List.foldl_cons, pieceTok_word hp]
    rw [ih (fun t ht => h t (by simp [ht]))]
    simp [wordStep]

theorem wInv_hyp (M : Metrics) (cfg : TCfg) (width height : Rat) (E0 : List (WTok Piece)) :
    RunHyp M cfg width height (WInv cfg E0) (fun r => WPost cfg (E0 ++ r.lines.flatMap lineToks) r.pos) where
  added := by
    intro r i k ws look ids w l' h wf hl hc hw hcase
    have hm := h.main
    cases hcase with
    | first _ hsp hs hs' hp hn hm' wf' hl' =>
      refine ⟨?_, h.eEnd, h.line, h.lineV, ?_, ?_, h.fin⟩
      · simp only [hp, hn, List.map_append, List.map_cons, List.map_nil, upto_word hc hw]
        rw [← List.append_assoc, wordState_append, hm, ← wordState_append]
      · intro hst; rw [hs'] at hst; cases hst
      · intro hst; rw [hs'] at hst; cases hst
    | accum _ hsp hcc hs' hp hn hm' wf' hl' =>
      have e1 : wordState (E0 ++ r.lines.flatMap lineToks ++ (pieces l'.parts).map pieceTok) = wordState (upto cfg.content i (k + 1)) := by
        rw [hp, upto_word hc hw, List.map_append, List.map_append, ← List.append_assoc, ← List.append_assoc,
          wordState_append, hm, List.map_cons, List.map_nil, pieceTok_blank (p := (c!" ", look, ids)) blank_isSpace,
          wordState_append, pieceTok_blank (p := (w, look, ids)) hsp]
      refine ⟨?_, h.eEnd, h.line, h.lineV, fun _ => e1, fun _ => validPos_word hc hw, h.fin⟩
      simp only [hn, List.map_nil, List.append_nil]
      exact e1
  keep := by
    intro r i k ws look ids w l' res h wf hl hc hw hcase hres
    have hm := h.main
    cases hcase with
    | first => rcases hres with h | h <;> cases h
    | accum => rcases hres with h | h <;> cases h
    | finished => rcases hres with h | h <;> cases h
    | ignored hsp hcc =>
      refine ⟨?_, h.eEnd, h.line, h.lineV, h.added, h.addedV, h.fin⟩
      rw [upto_word hc hw, wordState_append (upto cfg.content i k), ← hm, pieceTok_blank hsp]
      simp only [List.foldl_cons, List.foldl_nil]
      rw [wordStep_sep_nil]
      have hnx : pieces r.cur.next = [] := by
        rcases hcc with ⟨a, b⟩ | ⟨a, b⟩
        · exact wf.fresh a b
        · exact wf.lastSp a b
      rw [hnx]
      simp only [List.map_nil, List.append_nil]
      rcases hcc with ⟨a, b⟩ | ⟨a, b⟩
      · rw [wf.notStarted a]
        simpa using h.eEnd
      · obtain ⟨init, p, ws', n, nx, e1, e2, e3, e4, e5⟩ := wf.start a
        rw [e1]
        simp only [pieces_append, pieces_cons, pieces_nil, TPart.pieces, e2, List.map_append, List.map_cons, List.map_nil,
          List.append_nil]
        rw [← List.append_assoc, ← List.append_assoc, wordState_append]
        simp only [List.foldl_cons, List.foldl_nil, pieceTok_blank (p := (c!" ", p.look, p.ids)) blank_isSpace]
        exact wordStep_sep_snd _
    | preadded _ hsp hs hs' hp hn hm' hfit wf' hl' =>
      refine ⟨?_, h.eEnd, h.line, h.lineV, ?_, ?_, h.fin⟩
      · simp only [hp, hn, List.map_append, List.map_cons, List.map_nil, upto_word hc hw]
        rw [← List.append_assoc, wordState_append, hm, ← wordState_append]
      · intro _; simp only [hp]; exact h.added hs
      · intro _; exact h.addedV hs
  finOk := by
    intro r i k ws look ids w l' nl b h wf hl hc hw hcase _ hh
    have hm := h.main
    cases hcase with
    | finished _ _ hsp hs hp hn hm' hok hlast ns nf np na nt nn wf' hl' =>
      obtain ⟨t, ht, ht1⟩ := hp
      have htb : pieceTok t = .sep := pieceTok_blank (by rw [ht1]; exact blank_isSpace)
      have e1 : wordState (E0 ++ (r.lines ++ [(l', b)]).flatMap lineToks)
          = wordState (E0 ++ r.lines.flatMap lineToks ++ (pieces r.cur.parts).map pieceTok) := by
        rw [ht]
        simp [lineToks_eq, htb]
      have e2 : (wordState (E0 ++ (r.lines ++ [(l', b)]).flatMap lineToks)).2 = [] := by
        rw [e1, ht, List.map_append, List.map_cons, List.map_nil, htb, ← List.append_assoc, wordState_append]
        exact wordStep_sep_snd _
      have e3 := h.added hs
      refine ⟨?_, e2, ?_, h.addedV hs, ?_, ?_, h.fin⟩
      · simp only [accept, np, pieces_nil, List.map_nil, List.append_nil]
        rw [wordState_append, e1, nn, List.map_append, ← wordState_append, ← List.append_assoc, wordState_append, hm,
          upto_word hc hw, wordState_append]
        simp
      · simp only [accept]; rw [e1, e3]
      · intro hst; simp only [ns] at hst; cases hst
      · intro hst; simp only [ns] at hst; cases hst
  finBad := by
    intro r i k ws look ids w l' nl h wf hl hc hw hcase hh
    exact ⟨h.eEnd, h.line, h.lineV, ⟨rfl, rfl⟩, h.fin⟩
  part := by
    intro r i k ws look ids h wf hc
    obtain ⟨w, hw⟩ := setupList_cur cfg { r with cur := r.cur.addLinePart look ids }
    obtain ⟨_, _, hpc⟩ := r.cur.addLinePart_wf M look ids wf
    have hcur : (partStart cfg look ids r).cur = { r.cur.addLinePart look ids with maxWidth := w } := hw
    have hl : (partStart cfg look ids r).lines = r.lines := by
      unfold partStart setupList; simp only []; split
      · rfl
      · split <;> rfl
    have hpos : ∃ b, (partStart cfg look ids r).pos = { r.pos with listDone := b } := by
      unfold partStart setupList; simp only []; split
      · exact ⟨r.pos.listDone, rfl⟩
      · split
        · exact ⟨r.pos.listDone, rfl⟩
        · exact ⟨true, rfl⟩
    obtain ⟨b, hb⟩ := hpos
    refine ⟨?_, ?_, ?_, ?_, ?_, ?_, ?_⟩
    · rw [hcur, hl]; simp only [hpc]; exact h.main
    · rw [hl]; exact h.eEnd
    · rw [hl, hb]; exact h.line
    · rw [hb]; exact h.lineV
    · rw [hcur, hl, hb]; exact h.added
    · rw [hcur, hb]; exact h.addedV
    · rw [hb]; exact h.fin
  partEnd := by
    intro r i ws look ids h wf hc
    refine ⟨?_, h.eEnd, h.line, h.lineV, h.added, h.addedV, h.fin⟩
    rw [upto_part hc]; exact h.main
  skip := by
    intro r i h wf hc
    refine ⟨?_, h.eEnd, h.line, h.lineV, h.added, h.addedV, h.fin⟩
    rw [upto_skip hc]; exact h.main
  brOk := by
    intro r i h wf hc hh
    obtain ⟨hi, _⟩ := List.getElem?_eq_some_iff.mp hc
    have e1 : wordState (E0 ++ (r.lines ++ [(closeLine true r.cur, true)]).flatMap lineToks)
        = wordState (upto cfg.content (i + 1) 0) := by
      rw [upto_br hc, wordState_append (upto cfg.content i 0), ← h.main, ← wordState_append]
      simp [lineToks_eq, closeLine]
    have e2 : (wordState (E0 ++ (r.lines ++ [(closeLine true r.cur, true)]).flatMap lineToks)).2 = [] := by
      rw [e1, upto_br hc, wordState_append]; exact wordStep_sep_snd _
    refine ⟨?_, e2, e1, validPos_zero _ _ hi, ?_, ?_, h.fin⟩
    · simpa [TLine.new, accept] using e1
    · intro hst; simp [TLine.new] at hst
    · intro hst; simp [TLine.new] at hst
  brBad := by
    intro r i h wf hc hh
    exact ⟨h.eEnd, h.line, h.lineV, ⟨rfl, rfl⟩, h.fin⟩

/-- one run -/
theorem textRun_words (M : Metrics) (cfg : TCfg) (width height : Rat) (E : List (WTok Piece)) (pos : TPos)
    (h : WPost cfg E pos) :
    (let r := textRun M cfg width height pos
     (r.pos.finished = true ∧ wordState (E ++ r.lines.flatMap lineToks) = wordState (cfg.content.flatMap itemToks ++ [.sep])) ∨
     WPost cfg (E ++ r.lines.flatMap lineToks) r.pos) := by
  refine textRun_ind (wInv_hyp M cfg width height E) pos h.lastV.2 h.lastV.1 ?_
    (fun r => (r.pos.finished = true ∧ wordState (E ++ r.lines.flatMap lineToks) = wordState (cfg.content.flatMap itemToks ++ [.sep])) ∨
     WPost cfg (E ++ r.lines.flatMap lineToks) r.pos) (fun r hr => Or.inr hr) ?_ ?_
  · refine ⟨?_, ?_, ?_, ?_, ?_, ?_, h.fin⟩
    · simpa [runInit, TLine.new] using h.last
    · simpa [runInit] using h.eEnd
    · simp only [runInit, List.flatMap_nil, List.append_nil]; rw [h.sync.1, h.sync.2]; exact h.last
    · simp only [runInit]; rw [h.sync.1, h.sync.2]; exact h.lastV
    · intro hst; simp [runInit, TLine.new] at hst
    · intro hst; simp [runInit, TLine.new] at hst
  · intro r hr wf hh
    left
    refine ⟨rfl, ?_⟩
    have := hr.main
    rw [upto_end] at this
    rw [wordState_append _ [WTok.sep], ← this, ← wordState_append]
    simp [accept, lineToks_eq, closeLine]
  · intro r hr wf hh
    right
    exact ⟨hr.eEnd, hr.line, hr.lineV, ⟨rfl, rfl⟩, hr.fin⟩

theorem textRuns_words (M : Metrics) (cfg : TCfg) : ∀ (rects : List (Rat × Rat)) (E : List (WTok Piece)) (pos : TPos),
    WPost cfg E pos →
    (let s := textRuns M cfg rects pos
     (s.1.finished = true ∧ wordState (E ++ s.2.flatten.flatMap lineToks) = wordState (cfg.content.flatMap itemToks ++ [.sep])) ∨
     WPost cfg (E ++ s.2.flatten.flatMap lineToks) s.1) := by
  intro rects
  induction rects with
  | nil => intro E pos h; right; simpa [textRuns] using h
  | cons x l ih =>
    intro E pos h
    obtain ⟨w, ht⟩ := x
    have hrun := textRun_words M cfg w ht E pos h
    have hne : ¬ pos.finished = true := by rw [h.fin]; simp
    simp only [textRuns, if_neg hne, List.flatten_cons, List.flatMap_append]
    simp only [] at hrun
    rcases hrun with ⟨hf, hr⟩ | hr
    · have e : textRuns M cfg l (textRun M cfg w ht pos).pos = ((textRun M cfg w ht pos).pos, []) := by
        cases l with
        | nil => rfl
        | cons y l => obtain ⟨a, b⟩ := y; simp [textRuns, hf]
      left
      rw [e]
      refine ⟨hf, ?_⟩
      simpa using hr
    · have := ih _ _ hr
      simp only [] at this
      rw [← List.append_assoc]
      exact this

theorem wPost_init (cfg : TCfg) : WPost cfg [] TPos.init := by
  refine ⟨rfl, ?_, validPos_zero _ _ (Nat.zero_le _), ⟨rfl, rfl⟩, rfl⟩
  simp [TPos.init, upto_zero]

theorem foldl_fst_prefix {W : Type} (l : List (WTok W)) : ∀ s : List (List W) × List W, s.1 <+: (l.foldl wordStep s).1 := by
  induction l with
  | nil => intro s; exact List.prefix_refl _
  | cons t l ih =>
    intro s
    refine List.IsPrefix.trans ?_ (ih (wordStep s t))
    cases t with
    | word w => exact List.prefix_refl _
    | sep =>
      by_cases h : s.2.isEmpty
      · simp only [wordStep, h, if_true]; exact List.prefix_refl _
      · simp only [wordStep, h, Bool.false_eq_true, if_false]; exact List.prefix_append _ _

/-- **C20.** Whatever the rectangles, when the paragraph is finished the words of all the lines of all the
runs are exactly the words of the content: same pieces, same order, same styles and ids, same word
boundaries. -/
theorem C20_words (M : Metrics) (cfg : TCfg) (rects : List (Rat × Rat))
    (hfin : (textRuns M cfg rects TPos.init).1.finished = true) :
    wordsOf ((textRuns M cfg rects TPos.init).2.flatten.flatMap lineToks) = wordsOf (cfg.content.flatMap itemToks) := by
  have := textRuns_words M cfg rects [] TPos.init (wPost_init cfg)
  simp only [List.nil_append] at this
  rcases this with ⟨_, h⟩ | h
  · unfold wordsOf
    rw [wordState_append, h, ← wordState_append, List.append_assoc]
    rw [wordState_append, wordState_append]
    simp only [List.cons_append, List.nil_append, List.foldl_cons, List.foldl_nil]
    rw [wordStep_sep_idem]
  · have := h.fin; rw [hfin] at this; cases this

/-- **C20.** At any moment the words written so far are the first words of the content. -/
theorem C20_prefix (M : Metrics) (cfg : TCfg) (rects : List (Rat × Rat)) :
    wordsOf ((textRuns M cfg rects TPos.init).2.flatten.flatMap lineToks) <+: wordsOf (cfg.content.flatMap itemToks) := by
  have := textRuns_words M cfg rects [] TPos.init (wPost_init cfg)
  simp only [List.nil_append] at this
  rcases this with ⟨hf, _⟩ | h
  · rw [C20_words M cfg rects hf]; exact List.prefix_refl _
  · unfold wordsOf
    rw [wordState_append, List.foldl_cons, List.foldl_nil, wordStep_sep_nil _ h.eEnd, h.last]
    generalize hs : textRuns M cfg rects TPos.init = s at h
    obtain ⟨pos, ls⟩ := s
    -- the text up to a position begins the whole text
    have hpre : ∃ t, cfg.content.flatMap itemToks = upto cfg.content pos.lastPart pos.lastWord ++ t := by
      have hsplit : cfg.content.flatMap itemToks = (cfg.content.take pos.lastPart).flatMap itemToks ++ (cfg.content.drop pos.lastPart).flatMap itemToks := by
        rw [← List.flatMap_append, List.take_append_drop]
      have hhead : cfg.content[pos.lastPart]? = (cfg.content.drop pos.lastPart).head? := by
        rw [List.head?_drop]
      rw [hsplit]
      unfold upto
      rw [hhead]
      cases cfg.content.drop pos.lastPart with
      | nil => exact ⟨[], by simp⟩
      | cons x l =>
        cases x with
        | br => exact ⟨(TItem.br :: l).flatMap itemToks, by simp⟩
        | skip => exact ⟨(TItem.skip :: l).flatMap itemToks, by simp⟩
        | text ws look ids =>
          refine ⟨(ws.drop pos.lastWord).map (fun w => pieceTok (w, look, ids)) ++ l.flatMap itemToks, ?_⟩
          simp only [List.head?_cons, List.flatMap_cons, itemToks]
          rw [List.append_assoc, ← List.append_assoc (List.map _ (List.take _ _)), ← List.map_append, List.take_append_drop]
    obtain ⟨t, ht⟩ := hpre
    rw [ht, List.append_assoc, wordState_append]
    exact foldl_fst_prefix _ _

section Example
private def exSt (size : Rat) : PState := ⟨c!"Helvetica", c!"n", c!"F1", size, ⟨none, false⟩, 0⟩
private def exLook (size : Rat) : TLook := ⟨exSt size, false, ⟨none, false⟩, none⟩
private def exM : Metrics := fun _ _ _ => 1 / 2
private def exCfg : TCfg :=
  ⟨[.text (splitWords c!"one two th") (exLook 10) none, .text (splitWords c!"ree  four") (exLook 12) none, .br,
    .text (splitWords c!"five") (exLook 10) (some [c!"x"])], 5, c!"j", 1, none⟩

/-- a paragraph split over two rectangles; the word `three` has two pieces of different size -/
example : (textRuns exM exCfg [(50, 30), (60, 40), (1, 1)] TPos.init).1.finished = true ∧
    (textRuns exM exCfg [(50, 30), (60, 40), (1, 1)] TPos.init).2.map (·.map fun l => l.1.parts.map fun p => p.words) =
      [[[[c!"one", c!" ", c!"two"]], [[c!"th"], [c!"ree"]]], [[[c!"four"]], [[c!"five"]]]] ∧
    wordsOf (exCfg.content.flatMap itemToks) =
      [[(c!"one", exLook 10, none)], [(c!"two", exLook 10, none)],
       [(c!"th", exLook 10, none), (c!"ree", exLook 12, none)], [(c!"four", exLook 12, none)],
       [(c!"five", exLook 10, some [c!"x"])]] := by
  decide +kernel
end Example

end Verif
