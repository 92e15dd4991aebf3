import Verif.Lemmas.TextLower
import Verif.Lemmas.TextFull
import Verif.Props.C95_FootPage
import Verif.Props.C83_InCells
import Verif.Props.C09_C11_Strings
/-! Property C96. -/
namespace Verif
open Spec

/-- **C96**, lines: a paragraph in a lower rectangle has the first of the lines that it has in a higher one; if it is finished there, nothing at all is different -/
theorem C96_lines (M : Metrics) (cfg : TCfg) (width h h' : Rat) (hh : h' ≤ h) (pos : TPos) (hp : pos.finished = false) :
    (textRun M cfg width h' pos).lines <+: (textRun M cfg width h pos).lines ∧
      ((textRun M cfg width h' pos).pos.finished = true → textRun M cfg width h pos = textRun M cfg width h' pos) :=
  textRun_below M cfg width hh pos hp

/-- **C96**, room: the first line that is missing in the lower rectangle has no room in it below the others -/
theorem C96_room (M : Metrics) (cfg : TCfg) (width h h' : Rat) (hh : h' ≤ h) (pos : TPos) (x : TLine × Bool) (rest : List (TLine × Bool))
    (hx : (textRun M cfg width h pos).lines = (textRun M cfg width h' pos).lines ++ x :: rest) :
    h' < linesHeight cfg.lineHeight ((textRun M cfg width h' pos).lines ++ [x]) := by
  rcases textRun_full M cfg width hh pos with h1 | ⟨y, ⟨t, ht⟩, h2⟩
  · rw [← h1] at hx
    simpa using congrArg List.length hx
  · rw [hx, List.append_assoc] at ht
    have := List.append_cancel_left ht
    simp only [List.cons_append, List.nil_append, List.cons.injEq] at this
    rw [← this.1]; exact h2

theorem outputParts_text {F : TFmt} {M : Metrics} {E : Encs} {y factor : Rat} : ∀ (l : List TPart) (s : LoopSt) {s' : LoopSt}, outputParts F M E y factor l s = .ok s' →
    s.text <+: s'.text ∧ s.graphics <+: s'.graphics := by
  intro l
  induction l with
  | nil => intro s s' h; cases h; exact ⟨List.prefix_refl _, List.prefix_refl _⟩
  | cons p l ih =>
    intro s s' h
    unfold outputParts at h
    split at h
    · cases h
    · rename_i s1 h1
      obtain ⟨k1, k2⟩ := ih _ h
      have key : s.text <+: s1.text ∧ s.graphics <+: s1.graphics := by
        unfold outputPart at h1
        simp only at h1
        split at h1
        · cases h1
        · split at h1
          · split at h1
            · cases h1
            · cases h1; exact ⟨List.prefix_append _ _, List.prefix_append _ _⟩
          · cases h1; exact ⟨List.prefix_append _ _, List.prefix_refl _⟩
      exact ⟨key.1.trans k1, key.2.trans k2⟩

theorem streamLines_text {F : TFmt} {M : Metrics} {E : Encs} {cfg : TCfg} {enc : Option (Str × Str)} {width : Rat} : ∀ (l : List (TLine × Bool)) (o : OutSt) {o' : OutSt},
    streamLines F M E cfg enc width l o = .ok o' → o.text <+: o'.text ∧ o.graphics <+: o'.graphics := by
  intro l
  induction l with
  | nil => intro o o' h; cases h; exact ⟨List.prefix_refl _, List.prefix_refl _⟩
  | cons p l ih =>
    intro o o' h
    unfold streamLines at h
    split at h
    · cases h
    · rename_i o1 h1
      obtain ⟨k1, k2⟩ := ih _ h
      have key : o.text <+: o1.text ∧ o.graphics <+: o1.graphics := by
        unfold addLineToStream at h1
        split at h1
        · cases h1
        · simp only at h1
          split at h1
          · cases h1
          · rename_i r hr
            cases h1
            obtain ⟨e1, e2⟩ := outputParts_text _ _ hr
            exact ⟨(List.prefix_append _ _).trans e1, e2⟩
      exact ⟨key.1.trans k1, key.2.trans k2⟩

/-- **C96**, streams: what is written for the lower rectangle is the beginning of what is written for the higher one, text, lines and backgrounds; the ids of the lower one come first, in
the same order -/
theorem C96_stream (F : TFmt) (M : Metrics) (E : Encs) (cfg : TCfg) (enc : Option (Str × Str)) (width h h' : Rat) (hh : h' ≤ h) (pos : TPos) (hp : pos.finished = false) (correct : Bool) (o o' : OutSt)
    (ho : textOut F M E cfg enc width h pos correct = .ok o) (ho' : textOut F M E cfg enc width h' pos correct = .ok o') :
    o'.text <+: o.text ∧ o'.graphics <+: o.graphics ∧ o'.ids.map Prod.fst <+: o.ids.map Prod.fst := by
  obtain ⟨rest, hrest⟩ := (textRun_below M cfg width hh pos hp).1
  unfold textOut at ho ho'
  rw [← hrest] at ho
  have h3 := streamLines_append rest _ _ ho' ho
  have hv := (streamLines_grow _ _ ho' (by simp [outInit])).1
  exact ⟨(streamLines_text _ _ h3).1, (streamLines_text _ _ h3).2, (streamLines_grow _ _ h3 hv).2⟩

/-- **C96**, boxes: a content box of one column with paragraphs (the leaves of `docExec`), new or after pages, shows in a lower rectangle the first of the footnote marks that it shows in a
higher one -/
theorem C96_box (T : TextEnv) (fuel : Nat) (s s1 s2 : CContent DocLeaf DocPart LineLook (PDFColor Rat)) (hleaf : s.LeavesOnly) (hone : s.cols = 1) (x y w h h' : Rat) (hh : h' ≤ h)
    (hr : s.run (docExec T) fuel x y w h = .ok s1) (hr' : s.run (docExec T) fuel x y w h' = .ok s2) :
    marksOn (s2.out.parts.map (boxPartIds DocPart.note)) <+: marksOn (s1.out.parts.map (boxPartIds DocPart.note)) :=
  content_lower (fun s x y w _ _ _ _ hh' => docExec_below T s x y w hh') hleaf hone fuel hh hr hr'

/-- **C95** for paragraphs as they are, whose texts are fixed: each mark has the number of its note in the list -/
theorem C95_texts (T : TextEnv) (total : Nat) (el : Str × Nat → CEl DocLeaf) (least : Rat) (hleast : 0 ≤ least) (hel : ∀ q, NoteEl least (el q)) (fuel : Nat)
    (s s' : CContent DocLeaf DocPart LineLook (PDFColor Rat)) (hleaf : s.LeavesOnly) (hone : s.cols = 1) (hgo : s.finished = false) (ctx ctx' : NCtx) (x y w h : Rat) (hw : least ≤ w)
    (p : FootPage DocPart LineLook (PDFColor Rat)) (hp : addFooted (fun _ => docExec T) (pageNotes total DocPart.note el) fuel s ctx x y w h = .ok (s', ctx', p))
    (L : FootList DocPart LineLook (PDFColor Rat)) (hL : p.list = some L) (whole : CContent DocLeaf DocPart LineLook (PDFColor Rat))
    (hwhole : s.run (docExec T) fuel x y w h = .ok whole) (all : List Nat) (hall : marksOn (whole.out.parts.map (boxPartIds DocPart.note)) = all.map noteName) (hd : all.Nodup) (hlt : ∀ n ∈ all, n < total) :
    ∃ (short : Rat) (marks : List Nat), s.run (docExec T) fuel x y w short = .ok s' ∧ s'.out = p.out ∧ L.ruleY + 5 = y - short ∧ marks <+: all ∧
      marksOn (p.out.parts.map (boxPartIds DocPart.note)) = marks.map noteName ∧
      ∀ i n, marks[i]? = some n → (numbered el marks)[i]? = some (el (natStr (i + 1) ++ c!" ", n)) ∧ dget (noteName n) ctx' = some (i + 1) := by
  obtain ⟨_, short, marks, h1, h2, h3, h4, h5, h6⟩ := C95_shown (exec := fun _ => docExec T) DocPart.note (fun _ _ s x y w _ _ _ _ hh' => docExec_below T s x y w hh') DocPart.area (fun _ => doc_keeps T)
    total el least hleast hel fuel s s' hleaf hone hgo ctx ctx' x y w h hw p hp L hL whole hwhole all hall hd hlt
  exact ⟨short, marks, h1, h2, h3, h4, h5, fun i n hi => ⟨(h6 i n hi).1, (h6 i n hi).2.2⟩⟩

/-! ### a paragraph -/

/-- four words, the third of them with a footnote -/
def lowerCfg : TCfg :=
  ⟨[.text (splitWords c!"one two ") (samplePart [] none).look none, .text (splitWords c!"three ") (samplePart [] none).look (some [noteName 0]),
    .text (splitWords c!"four") (samplePart [] none).look (some [noteName 1])], 5, c!"l", 1, none⟩

def lowerWords (h : Rat) : List (List (List Str)) := (textRun sampleM lowerCfg 80 h TPos.init).lines.map fun l => l.1.parts.map (·.words)

/-- 80 wide: three lines in a rectangle of height 40, two in one of height 25 -/
example : lowerWords 40 = [[[c!"one", c!" ", c!"two"]], [[], [c!"three"]], [[], [c!"four"]]] ∧ lowerWords 25 = [[[c!"one", c!" ", c!"two"]], [[], [c!"three"]]] := by decide +kernel

example : (textRun sampleM lowerCfg 80 25 TPos.init).lines <+: (textRun sampleM lowerCfg 80 40 TPos.init).lines :=
  (C96_lines sampleM lowerCfg 80 40 25 (by norm_num) TPos.init rfl).1

example : (textRun sampleM lowerCfg 80 40 TPos.init).pos.finished = true → textRun sampleM lowerCfg 80 100 TPos.init = textRun sampleM lowerCfg 80 40 TPos.init :=
  (C96_lines sampleM lowerCfg 80 100 40 (by norm_num) TPos.init rfl).2

/-- the third line would end at 31 -/
example (x : TLine × Bool) (rest : List (TLine × Bool)) (hx : (textRun sampleM lowerCfg 80 40 TPos.init).lines = (textRun sampleM lowerCfg 80 25 TPos.init).lines ++ x :: rest) :
    25 < linesHeight 1 ((textRun sampleM lowerCfg 80 25 TPos.init).lines ++ [x]) :=
  C96_room sampleM lowerCfg 80 40 25 (by norm_num) TPos.init x rest hx

example : (textRun sampleM lowerCfg 80 40 TPos.init).lines.map (fun l => l.1.height) = [11, 10, 10] ∧ (textRun sampleM lowerCfg 80 25 TPos.init).lines.length = 2 := by decide +kernel

def lowerOut (h : Rat) : Option (Str × List Str) :=
  match textOut sampleTFmt sampleM (fun _ _ => none) lowerCfg none 80 h TPos.init true with
  | .ok o => some (o.text, o.ids.map Prod.fst)
  | .error _ => none

example : (lowerOut 40).map (·.2) = some [noteName 0, noteName 1] ∧ (lowerOut 25).map (·.2) = some [noteName 0] := by decide +kernel

example (o o' : OutSt) (h : textOut sampleTFmt sampleM (fun _ _ => none) lowerCfg none 80 40 TPos.init true = .ok o)
    (h' : textOut sampleTFmt sampleM (fun _ _ => none) lowerCfg none 80 25 TPos.init true = .ok o') : o'.text <+: o.text :=
  (C96_stream sampleTFmt sampleM (fun _ _ => none) lowerCfg none 80 40 25 (by norm_num) TPos.init rfl true o o' h h').1

/-- two of these paragraphs on a page of height 100, and on one of height 50 -/
def lowerBox : CContent DocLeaf DocPart LineLook (PDFColor Rat) :=
  CContent.new 1 none (List.replicate 2 (.leaf (.par ⟨lowerCfg, none⟩ [] true) ⟨0, 2, 0, 0, none, false, .normal⟩))

example (s1 s2 : CContent DocLeaf DocPart LineLook (PDFColor Rat)) (h1 : lowerBox.run (docExec ⟨sampleTFmt, sampleM, fun _ _ => none⟩) 50 0 100 80 100 = .ok s1)
    (h2 : lowerBox.run (docExec ⟨sampleTFmt, sampleM, fun _ _ => none⟩) 50 0 100 80 50 = .ok s2) :
    marksOn (s2.out.parts.map (boxPartIds DocPart.note)) <+: marksOn (s1.out.parts.map (boxPartIds DocPart.note)) :=
  C96_box ⟨sampleTFmt, sampleM, fun _ _ => none⟩ 50 lowerBox s1 s2 (new_leavesOnly 1 none (by
    intro e he
    rw [List.eq_of_mem_replicate he]
    trivial)) rfl 0 100 80 100 50 (by norm_num) h1 h2

def lowerMarks (h : Rat) : Option (List Str) :=
  match lowerBox.run (docExec ⟨sampleTFmt, sampleM, fun _ _ => none⟩) 50 0 100 80 h with
  | .ok s => some (marksOn (s.out.parts.map (boxPartIds DocPart.note)))
  | .error _ => none

example : lowerMarks 100 = some [noteName 0, noteName 1, noteName 0, noteName 1] ∧ lowerMarks 50 = some [noteName 0, noteName 1] := by decide +kernel

end Verif
