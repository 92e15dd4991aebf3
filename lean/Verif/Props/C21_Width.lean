import Verif.Props.C20_Words
/-! C21: every line is narrower than the width available to it, unless it holds a single word. -/
namespace Verif
open Spec

/-- the width of pieces of text, each in its own font and size, with blanks scaled by `f` -/
def textWidth (M : Metrics) (f : Rat) (l : List Piece) : Rat :=
  (l.map fun p => if strIsSpace p.1 then f * (p.2.1.st.size * (p.1.map (M p.2.1.st.family p.2.1.st.mode)).sum)
    else p.2.1.st.size * (p.1.map (M p.2.1.st.family p.2.1.st.mode)).sum).sum

/-- how far blanks may shrink: to 70 % in a justified paragraph, else not at all -/
def leastBlank (align : Str) : Rat := if align = c!"j" then 7 / 10 else 1

/-- without the blanks at its end -/
def trimEnd (l : List Piece) : List Piece := (l.reverse.dropWhile fun p => strIsSpace p.1).reverse

/-- the text of a line is narrower than `w`, or it is a single word -/
def Fits (M : Metrics) (f : Rat) (l : List Piece) (w : Rat) : Prop :=
  textWidth M f (trimEnd l) < w ∨ (wordsOf (l.map pieceTok)).length ≤ 1

theorem textWidth_append (M : Metrics) (f : Rat) (a b : List Piece) :
    textWidth M f (a ++ b) = textWidth M f a + textWidth M f b := by
  simp [textWidth]

theorem partWidth_eq (M : Metrics) (f : Rat) (p : TPart) (hok : p.Ok M) (hb : ∀ t ∈ p.pieces, strIsSpace t.1 = true → t.1 = c!" ") :
    p.width + p.spaces * f = textWidth M f p.pieces := by
  obtain ⟨h1, h2⟩ := hok
  rw [h1, h2]
  unfold TPart.pieces at hb ⊢
  generalize p.words = ws at hb
  clear h1 h2
  induction ws with
  | nil => simp [textWidth]
  | cons w ws ih =>
    have ih' := ih (fun t ht => hb t (by simp only [List.map_cons, List.mem_cons]; exact Or.inr ht))
    have hw := hb (w, p.look, p.ids) (by simp)
    have e : textWidth M f (List.map (fun w => (w, p.look, p.ids)) (w :: ws)) =
        (if strIsSpace w then f * wordWidth M p.look.st w else wordWidth M p.look.st w) +
        textWidth M f (List.map (fun w => (w, p.look, p.ids)) ws) := by
      simp only [textWidth, List.map_cons, List.sum_cons, wordWidth]
    rw [e, ← ih']
    by_cases hs : strIsSpace w = true
    · have := hw hs
      simp only at this
      subst this
      rw [if_pos hs]
      simp
      ring
    · have hne : ¬ w = c!" " := by intro e; rw [e] at hs; exact hs blank_isSpace
      rw [if_neg hs]
      simp [hne]
      ring

theorem minWidth_eq (M : Metrics) (al : Str) (l : List TPart) (hok : ∀ p ∈ l, p.Ok M)
    (hb : ∀ t ∈ pieces l, strIsSpace t.1 = true → t.1 = c!" ") :
    minWidth al l = textWidth M (minFactor al) (pieces l) := by
  induction l with
  | nil => simp [minWidth, partsWidths, textWidth]
  | cons p l ih =>
    have ih' := ih (fun q hq => hok q (by simp [hq])) (fun t ht => hb t (by simp [ht]))
    have hp := partWidth_eq M (minFactor al) p (hok p (by simp)) (fun t ht => hb t (by simp [ht]))
    rw [pieces_cons, textWidth_append, ← ih', ← hp]
    simp [minWidth, partsWidths]
    ring

theorem trimEnd_blank (l : List Piece) (t : Piece) (h : strIsSpace t.1 = true) : trimEnd (l ++ [t]) = trimEnd l := by
  simp [trimEnd, h]

theorem trimEnd_noBlank (a b : List Piece) (hb : b ≠ []) (h : ∀ t ∈ b, strIsSpace t.1 = false) : trimEnd (a ++ b) = a ++ b := by
  rcases List.eq_nil_or_concat b with rfl | ⟨b', t, rfl⟩
  · exact absurd rfl hb
  · rw [List.concat_eq_append] at h ⊢
    have := h t (by simp)
    simp [trimEnd, this]

theorem wordsOf_sep {W : Type} (l : List (WTok W)) : wordsOf (l ++ [.sep]) = wordsOf l := by
  unfold wordsOf
  rw [wordState_append, wordState_append]
  simp only [List.foldl_cons, List.foldl_nil]
  rw [wordStep_sep_idem]

theorem wordsOf_noBlank (l : List Piece) (h : ∀ t ∈ l, strIsSpace t.1 = false) : (wordsOf (l.map pieceTok)).length ≤ 1 := by
  unfold wordsOf
  rw [wordState_append]
  have := foldl_noBlank l h ([], [])
  unfold wordState
  rw [this]
  simp only [List.nil_append, List.foldl_cons, List.foldl_nil, wordStep]
  split <;> simp

/-- what is known of a line: `w` is the width available -/
structure FLine (M : Metrics) (al : Str) (l : TLine) (w : Rat) : Prop where
  cls : ∀ t ∈ pieces l.parts, strIsSpace t.1 = true → t.1 = c!" "
  fit : l.started = true → Fits M (minFactor al) (pieces l.parts) w
  pend : l.started = true → pieces l.next ≠ [] →
    textWidth M (minFactor al) (pieces l.parts) + textWidth M (minFactor al) (pieces l.next) < w
  mw : l.maxWidth = w
  al : l.align = al

theorem FLine.accum {M : Metrics} {al : Str} {l l' : TLine} {w : Rat} {look : TLook} {ids : Option (List Str)}
    (h : FLine M al l w) (wf : l.Wf M)
    (hp : pieces l'.parts = pieces l.parts ++ pieces l.next ++ [(c!" ", look, ids)])
    (hn : pieces l'.next = [])
    (hm : l'.maxWidth = l.maxWidth ∧ l'.align = l.align ∧ l'.topMargin = l.topMargin) : FLine M al l' w := by
  have hbl : strIsSpace (c!" ", look, ids).1 = true := blank_isSpace
  refine ⟨?_, ?_, ?_, by rw [hm.1, h.mw], by rw [hm.2.1, h.al]⟩
  · intro t ht hs
    rw [hp] at ht
    simp only [List.mem_append, List.mem_singleton] at ht
    rcases ht with (ht | ht) | rfl
    · exact h.cls t ht hs
    · rw [wf.noBlank t ht] at hs; cases hs
    · rfl
  · intro _
    rw [hp]
    by_cases hs : l.started = true
    · by_cases hnx : pieces l.next = []
      · rw [hnx, List.append_nil]
        rcases h.fit hs with a | a
        · left; rw [trimEnd_blank _ _ hbl]; exact a
        · right; rw [List.map_append, List.map_cons, List.map_nil, pieceTok_blank hbl, wordsOf_sep]; exact a
      · left
        rw [trimEnd_blank _ _ hbl, trimEnd_noBlank _ _ hnx wf.noBlank, textWidth_append]
        exact h.pend hs hnx
    · right
      have hs' : l.started = false := by simpa using hs
      rw [wf.notStarted hs', List.map_append, List.map_cons, List.map_nil, pieceTok_blank hbl, wordsOf_sep]
      simpa using wordsOf_noBlank _ wf.noBlank
  · intro _ hne; exact absurd hn hne

/-- the line that is added at a line break or at the end -/
theorem FLine.close {M : Metrics} {al : Str} {l : TLine} {w : Rat} (h : FLine M al l w) (wf : l.Wf M) :
    Fits M (minFactor al) (pieces (closeLine true l).parts) w := by
  simp only [closeLine, if_true, pieces_append]
  by_cases hs : l.started = true
  · by_cases hnx : pieces l.next = []
    · rw [hnx, List.append_nil]; exact h.fit hs
    · left
      rw [trimEnd_noBlank _ _ hnx wf.noBlank, textWidth_append]
      exact h.pend hs hnx
  · right
    have hs' : l.started = false := by simpa using hs
    rw [wf.notStarted hs']
    simpa using wordsOf_noBlank _ wf.noBlank

theorem FLine.close_cls {M : Metrics} {al : Str} {l : TLine} {w : Rat} (h : FLine M al l w) (wf : l.Wf M) :
    ∀ t ∈ pieces (closeLine true l).parts, strIsSpace t.1 = true → t.1 = c!" " := by
  simp only [closeLine, if_true, pieces_append]
  intro t ht hs
  rcases List.mem_append.1 ht with ht | ht
  · exact h.cls t ht hs
  · rw [wf.noBlank t ht] at hs; cases hs

/-- the width available to the `j`-th line of a run -/
def availW (cfg : TCfg) (width : Rat) (first : Bool) (j : Nat) : Rat :=
  width - (if first = true ∧ j = 0 then cfg.indent else 0)

/-- the lines of a run fit -/
def AllFit (M : Metrics) (cfg : TCfg) (width : Rat) (first : Bool) (ls : List (TLine × Bool)) : Prop :=
  ∀ j x, ls[j]? = some x → Fits M (minFactor cfg.align) (pieces x.1.parts) (availW cfg width first j) ∧
    (∀ t ∈ pieces x.1.parts, strIsSpace t.1 = true → t.1 = c!" ") ∧ x.1.align = cfg.align

/-- what is known during a run -/
structure FInv (M : Metrics) (cfg : TCfg) (width : Rat) (first : Bool) (r : RunSt) (i k : Nat) : Prop where
  cur : FLine M cfg.align r.cur (availW cfg width first r.lines.length)
  lines : AllFit M cfg width first r.lines

theorem fits_snoc {M : Metrics} {cfg : TCfg} {width : Rat} {first : Bool} {ls : List (TLine × Bool)} {x : TLine × Bool}
    (h : AllFit M cfg width first ls)
    (hx : Fits M (minFactor cfg.align) (pieces x.1.parts) (availW cfg width first ls.length))
    (hb : ∀ t ∈ pieces x.1.parts, strIsSpace t.1 = true → t.1 = c!" ") (ha : x.1.align = cfg.align) :
    AllFit M cfg width first (ls ++ [x]) := by
  intro j y hy
  rcases Nat.lt_trichotomy j ls.length with hj | hj | hj
  · rw [List.getElem?_append_left hj] at hy; exact h j y hy
  · subst hj
    rw [List.getElem?_append_right (Nat.le_refl _)] at hy
    simp only [Nat.sub_self, List.getElem?_cons_zero, Option.some.injEq] at hy
    subst hy; exact ⟨hx, hb, ha⟩
  · rw [List.getElem?_append_right (by omega)] at hy
    have : j - ls.length ≠ 0 := by omega
    obtain ⟨n, hn⟩ := Nat.exists_eq_succ_of_ne_zero this
    rw [hn] at hy
    simp at hy

theorem fInv_hyp (M : Metrics) (cfg : TCfg) (width height : Rat) (first : Bool) (hlist : cfg.list = none) :
    RunHyp M cfg width height (FInv M cfg width first)
      (fun r => AllFit M cfg width first r.lines) where
  added := by
    intro r i k ws look ids w l' h wf hl hc hw hcase
    refine ⟨?_, h.lines⟩
    cases hcase with
    | first _ hsp hs hs' hp hn hm' wf' hl' =>
      refine ⟨?_, ?_, ?_, by rw [hm'.1, h.cur.mw], by rw [hm'.2.1, h.cur.al]⟩
      · rw [hp]; exact h.cur.cls
      · intro hst; rw [hs'] at hst; cases hst
      · intro hst; rw [hs'] at hst; cases hst
    | accum _ hsp hcc hs' hp hn hm' wf' hl' => exact h.cur.accum wf hp hn hm'
  keep := by
    intro r i k ws look ids w l' res h wf hl hc hw hcase hres
    cases hcase with
    | first => rcases hres with h | h <;> cases h
    | accum => rcases hres with h | h <;> cases h
    | finished => rcases hres with h | h <;> cases h
    | ignored hsp hcc => exact ⟨h.cur, h.lines⟩
    | preadded _ hsp hs hs' hp hn hm' hfit wf' hl' =>
      refine ⟨⟨?_, ?_, ?_, by rw [hm'.1, h.cur.mw], by rw [hm'.2.1, h.cur.al]⟩, h.lines⟩
      · rw [hp]; exact h.cur.cls
      · intro _; rw [hp]; exact h.cur.fit hs
      · intro _ _
        have hcls : ∀ t ∈ pieces l'.parts, strIsSpace t.1 = true → t.1 = c!" " := by rw [hp]; exact h.cur.cls
        rw [minWidth_eq M _ _ wf'.okParts hcls,
          minWidth_eq M _ _ wf'.okNext (fun t ht hb => by rw [wf'.noBlank t ht] at hb; cases hb),
          hm'.2.1, h.cur.al, hm'.1, h.cur.mw] at hfit
        exact hfit
  finOk := by
    intro r i k ws look ids w l' nl b h wf hl hc hw hcase _ hh
    cases hcase with
    | finished _ _ hsp hs hp hn hm' hok hlast ns nf np na nt nn wf' hl' =>
      obtain ⟨t, ht, ht1⟩ := hp
      have htb : strIsSpace t.1 = true := by rw [ht1]; exact blank_isSpace
      refine ⟨⟨?_, ?_, ?_, ?_, ?_⟩, ?_⟩
      · simp only [np, pieces_nil]; intro t ht; cases ht
      · intro hst; simp only [ns] at hst; cases hst
      · intro hst; simp only [ns] at hst; cases hst
      · simp only [accept, List.length_append, List.length_singleton, availW, TCfg.listIndent, hlist]
        rw [if_neg (by simp)]
      · simp only [na, h.cur.al]
      · simp only [accept]
        refine fits_snoc h.lines ?_ (fun u hu => h.cur.cls u (by rw [ht]; exact List.mem_append_left _ hu)) (hm'.2.1.trans h.cur.al)
        rcases h.cur.fit hs with a | a
        · left; rw [ht, trimEnd_blank _ _ htb] at a; exact a
        · right
          rw [ht, List.map_append, List.map_cons, List.map_nil, pieceTok_blank htb, wordsOf_sep] at a
          exact a
  finBad := by
    intro r i k ws look ids w l' nl h wf hl hc hw hcase hh
    exact h.lines
  part := by
    intro r i k ws look ids h wf hc
    obtain ⟨_, _, hpc⟩ := r.cur.addLinePart_wf M look ids wf
    have e : partStart cfg look ids r = { r with cur := r.cur.addLinePart look ids, curUsed := r.curUsed ++ [(look.st.family, look.st.mode)] } := by
      unfold partStart setupList; rw [hlist]
    rw [e]
    refine ⟨⟨h.cur.cls, h.cur.fit, ?_, h.cur.mw, h.cur.al⟩, h.lines⟩
    simp only [hpc]; exact h.cur.pend
  partEnd := by
    intro r i ws look ids h wf hc
    exact ⟨h.cur, h.lines⟩
  skip := by
    intro r i h wf hc
    exact ⟨h.cur, h.lines⟩
  brOk := by
    intro r i h wf hc hh
    refine ⟨⟨?_, ?_, ?_, ?_, ?_⟩, ?_⟩
    · intro t ht; simp only [TLine.new, pieces_nil] at ht; cases ht
    · intro hst; simp [TLine.new] at hst
    · intro hst; simp [TLine.new] at hst
    · simp only [accept, List.length_append, List.length_singleton, availW, TLine.new]
      rw [if_neg (by simp)]; ring
    · simp only [TLine.new]
    · simp only [accept]
      exact fits_snoc h.lines (h.cur.close wf) (h.cur.close_cls wf) h.cur.al
  brBad := by
    intro r i h wf hc hh
    exact h.lines

theorem textRun_fits (M : Metrics) (cfg : TCfg) (width height : Rat) (pos : TPos) (hlist : cfg.list = none)
    (hv : ValidPos cfg.content pos.lastPart pos.lastWord) :
    AllFit M cfg width pos.isFirstLine (textRun M cfg width height pos).lines := by
  refine textRun_ind (fInv_hyp M cfg width height pos.isFirstLine hlist) pos hv.2 hv.1 ?_
    (R := fun r => AllFit M cfg width pos.isFirstLine r.lines) (fun r hr => hr) ?_ ?_
  · refine ⟨⟨?_, ?_, ?_, ?_, rfl⟩, ?_⟩
    · intro t ht; simp [runInit, TLine.new] at ht
    · intro hst; simp [runInit, TLine.new] at hst
    · intro hst; simp [runInit, TLine.new] at hst
    · simp [runInit, TLine.new, availW]
    · intro j x hx; simp [runInit] at hx
  · intro r hr wf hh
    simp only [accept]
    exact fits_snoc hr.lines (hr.cur.close wf) (hr.cur.close_cls wf) hr.cur.al
  · intro r hr wf hh
    exact hr.lines

/-- whether a line was added, text.py:835, between runs -/
theorem textRun_first (M : Metrics) (cfg : TCfg) (width height : Rat) (pos : TPos)
    (hv : ValidPos cfg.content pos.lastPart pos.lastWord) :
    (textRun M cfg width height pos).pos.isFirstLine = (pos.isFirstLine && (textRun M cfg width height pos).lines.isEmpty) := by
  refine textRun_ind (P := fun r _ _ => r.pos.isFirstLine = (pos.isFirstLine && r.lines.isEmpty))
    (Q := fun r => r.pos.isFirstLine = (pos.isFirstLine && r.lines.isEmpty))
    (M := M) (cfg := cfg) (width := width) (height := height) ?_ pos hv.2 hv.1 ?_
    (fun r => r.pos.isFirstLine = (pos.isFirstLine && r.lines.isEmpty)) (fun r hr => hr) ?_ ?_
  · refine ⟨?_, ?_, ?_, ?_, ?_, ?_, ?_, ?_, ?_⟩
    · intro r i k ws look ids w l' h _ _ _ _ _; exact h
    · intro r i k ws look ids w l' res h _ _ _ _ _ _; exact h
    · intro r i k ws look ids w l' nl b h _ _ _ _ _ _; simp [accept]
    · intro r i k ws look ids w l' nl h _ _ _ _ _ _; exact h
    · intro r i k ws look ids h _ _
      have e : (partStart cfg look ids r).pos.isFirstLine = r.pos.isFirstLine ∧ (partStart cfg look ids r).lines = r.lines := by
        unfold partStart setupList; simp only []; split
        · exact ⟨rfl, rfl⟩
        · split <;> exact ⟨rfl, rfl⟩
      rw [e.1, e.2]; exact h
    · intro r i ws look ids h _ _; exact h
    · intro r i h _ _; exact h
    · intro r i h _ _ _; simp [accept]
    · intro r i h _ _ _; exact h
  · simp [runInit]
  · intro r hr _ _; simp [accept]
  · intro r hr _ _; exact hr

/-- the widths available to the lines of every run: the first line of the paragraph is indented -/
def LinesFit (M : Metrics) (cfg : TCfg) : Bool → List (Rat × Rat) → List (List (TLine × Bool)) → Prop
  | _, _, [] => True
  | _, [], _ :: _ => False
  | first, (w, _) :: rects, ls :: rest =>
    (∀ j x, ls[j]? = some x → Fits M (leastBlank cfg.align) (pieces x.1.parts) (w - if first = true ∧ j = 0 then cfg.indent else 0)) ∧
    LinesFit M cfg (first && ls.isEmpty) rects rest

theorem textRuns_fits (M : Metrics) (cfg : TCfg) (hlist : cfg.list = none) : ∀ (rects : List (Rat × Rat)) (E : List (WTok Piece)) (pos : TPos),
    WPost cfg E pos → LinesFit M cfg pos.isFirstLine rects (textRuns M cfg rects pos).2 := by
  intro rects
  induction rects with
  | nil => intro E pos _; simp [textRuns, LinesFit]
  | cons x l ih =>
    intro E pos h
    obtain ⟨w, ht⟩ := x
    have hne : ¬ pos.finished = true := by rw [h.fin]; simp
    simp only [textRuns, if_neg hne, LinesFit]
    refine ⟨fun j x hx => (textRun_fits M cfg w ht pos hlist h.lastV j x hx).1, ?_⟩
    rw [← textRun_first M cfg w ht pos h.lastV]
    have hrun := textRun_words M cfg w ht E pos h
    simp only [] at hrun
    rcases hrun with ⟨hf, hr⟩ | hr
    · have e : textRuns M cfg l (textRun M cfg w ht pos).pos = ((textRun M cfg w ht pos).pos, []) := by
        cases l with
        | nil => rfl
        | cons y l => obtain ⟨a, b⟩ := y; simp [textRuns, hf]
      rw [e]; simp [LinesFit]
    · exact ih _ _ hr

/-- **C21, partial: paragraphs without `list_text`.** Every line of every run is narrower than the width of
its rectangle (less the indent for the first line of the paragraph), with blanks at 70 % in a justified
paragraph, unless it is a single word. Blanks at the end of a line do not count. -/
theorem C21_lines_fit_partial (M : Metrics) (cfg : TCfg) (hlist : cfg.list = none) (rects : List (Rat × Rat)) :
    LinesFit M cfg true rects (textRuns M cfg rects TPos.init).2 :=
  textRuns_fits M cfg hlist rects [] TPos.init (wPost_init cfg)

section Example
private def ex1St (size : Rat) : PState := ⟨c!"Helvetica", c!"n", c!"F1", size, ⟨none, false⟩, 0⟩
private def ex1Look (size : Rat) : TLook := ⟨ex1St size, false, ⟨none, false⟩, none⟩
private def ex1M : Metrics := fun _ _ _ => 1 / 2
private def ex1Cfg : TCfg := ⟨[.text (splitWords c!"one two three four") (ex1Look 10) none], 5, c!"l", 1, none⟩

/-- the second line does not take `four`, which would not fit -/
example : (textRuns ex1M ex1Cfg [(46, 100)] TPos.init).2.map (·.map fun l => l.1.parts.map fun p => p.words) =
    [[[[c!"one", c!" ", c!"two"]], [[c!"three"]], [[c!"four"]]]] ∧
    textWidth ex1M 1 (trimEnd (pieces ((textRuns ex1M ex1Cfg [(46, 100)] TPos.init).2.flatten.flatMap (·.1.parts)))) = 80 := by
  decide +kernel

private def ex1List : TCfg :=
  ⟨[.text (splitWords c!"aaaa bbbb cccc") (ex1Look 10) none, .br, .text (splitWords c!"aaaa bbbb") (ex1Look 10) none],
    0, c!"l", 1, some ⟨c!"-", 30, ex1St 10⟩⟩

/-- **C21 is false for list paragraphs**: lines after a line break (and lines of later rectangles) take the
whole width although they start at the list indent. Here the lines of a 60 wide list paragraph, which begin
at 30, have a word each before the break, but the one after it has two words, 45 wide. -/
theorem C21_list_lines_false :
    (textRuns ex1M ex1List [(60, 100)] TPos.init).2.map (·.map fun l => l.1.parts.map fun p => p.words) =
      [[[[c!"aaaa"]], [[c!"bbbb"]], [[c!"cccc"]], [[c!"aaaa", c!" "], [c!"bbbb"]]]] ∧
    ¬ (∀ ls ∈ (textRuns ex1M ex1List [(60, 100)] TPos.init).2, ∀ x ∈ ls,
        Fits ex1M (leastBlank ex1List.align) (pieces x.1.parts) (60 - 30)) := by
  refine ⟨by decide +kernel, ?_⟩
  intro h
  have hmem : ∃ ls ∈ (textRuns ex1M ex1List [(60, 100)] TPos.init).2, ∃ x ∈ ls,
      ¬ (textWidth ex1M (leastBlank ex1List.align) (trimEnd (pieces x.1.parts)) < 60 - 30) ∧
      ¬ (wordsOf ((pieces x.1.parts).map pieceTok)).length ≤ 1 := by decide +kernel
  obtain ⟨ls, hls, x, hx, h1, h2⟩ := hmem
  rcases h ls hls x hx with a | a
  · exact h1 a
  · exact h2 a
end Example

end Verif
