import Mathlib.Data.List.SplitBy
import Verif.Spec.Letters
import Verif.Lemmas.FileText
/-! C20 from the texts as they are written: the letters of all lines, word by word. -/
namespace Verif
open Spec

theorem pyIsSpace_iff (c : Char) : pyIsSpace c = true ↔ c.toNat ∈ whiteSpace := by
  generalize hn : c.toNat = n
  simp only [pyIsSpace, isSpace, hn, whiteSpace, Bool.or_eq_true, beq_iff_eq, Bool.and_eq_true, decide_eq_true_eq, List.mem_cons, List.not_mem_nil, or_false]
  omega

section
variable {X : Type} (g : Piece → List (WTok X))

/-- a piece or a separator, in other tokens -/
def tokWith : WTok Piece → List (WTok X)
  | .sep => [.sep]
  | .word p => g p

def stateWith (st : List (List Piece) × List Piece) : List (WTok X) := (st.1.flatMap fun ps => ps.flatMap g ++ [.sep]) ++ st.2.flatMap g

theorem stateWith_closed : ∀ (l : List (List Piece)), (wordState (stateWith g (l, []))).2 = [] := by
  intro l
  rcases List.eq_nil_or_concat l with rfl | ⟨l, a, rfl⟩
  · rfl
  · simp only [stateWith, List.concat_eq_append, List.flatMap_append, List.flatMap_cons, List.flatMap_nil, List.append_nil]
    rw [← List.append_assoc, wordState_snoc]
    simp only [wordStep]
    split
    · rename_i h; simpa using h
    · rfl

theorem wordState_with (l : List (WTok Piece)) : wordState (l.flatMap (tokWith g)) = wordState (stateWith g (wordState l)) := by
  induction l using List.reverseRecOn with
  | nil => rfl
  | append_singleton l t ih =>
    rw [wordState_snoc, List.flatMap_append, wordState_append, ih, ← wordState_append]
    cases t with
    | word p => simp [wordStep, stateWith, tokWith]
    | sep =>
      simp only [wordStep, List.flatMap_cons, List.flatMap_nil, List.append_nil, tokWith]
      generalize wordState l = st
      obtain ⟨d, cur⟩ := st
      cases cur with
      | nil =>
        simp only [List.isEmpty_nil, if_true]
        rw [wordState_snoc]
        have := stateWith_closed g d
        simp [wordStep, this]
      | cons a cur => simp [stateWith]

theorem wordsOf_with (l : List (WTok Piece)) : wordsOf (l.flatMap (tokWith g)) = (wordState (stateWith g (wordsOf l, []))).1 := by
  have e : wordState (l ++ [.sep]) = (wordsOf l, []) := by
    have : (wordState (l ++ [.sep])).2 = [] := by
      rw [wordState_snoc]
      simp only [wordStep]
      split
      · rename_i h; simpa using h
      · rfl
    rw [← this]; rfl
  rw [← e, ← wordState_with]
  simp [wordsOf, tokWith]

end

/-- the letters of a piece -/
def pieceLetters (p : Piece) : List (WTok Letter) := p.1.map (letterTok p.2.1 p.2.2)

theorem letters_blank {look : TLook} {ids : Option (List Str)} : ∀ {w : Str}, w ≠ [] → (∀ c ∈ w, pyIsSpace c = true) → Same (w.map (letterTok look ids)) [.sep] := by
  intro w
  induction w with
  | nil => intro h; exact absurd rfl h
  | cons c w ih =>
    intro _ h
    have e : letterTok look ids c = .sep := by rw [letterTok, if_pos ((pyIsSpace_iff c).1 (h c (by simp)))]
    rw [List.map_cons, e]
    cases w with
    | nil => exact .refl _
    | cons d w => exact ((ih (by simp) fun x hx => h x (by simp [hx])).cons _).trans (same_sep_sep _)

theorem blank_word {w : Str} (h : strIsSpace w = true) : w ≠ [] ∧ ∀ c ∈ w, pyIsSpace c = true := by
  simpa only [strIsSpace, Bool.and_eq_true, Bool.not_eq_true', List.isEmpty_eq_false_iff, List.all_eq_true] using h

theorem same_letters (ws : List Str) (look : TLook) (ids : Option (List Str)) :
    Same (ws.flatten.map (letterTok look ids)) ((ws.map fun w => pieceTok (w, look, ids)).flatMap (tokWith pieceLetters)) := by
  induction ws with
  | nil => exact .refl _
  | cons w ws ih =>
    rw [List.flatten_cons, List.map_append, List.map_cons, List.flatMap_cons]
    refine .append ?_ ih
    unfold pieceTok
    split
    · rename_i h
      exact letters_blank (blank_word h).1 (blank_word h).2
    · exact .refl _

/-- cutting a text into words and writing its blanks as one changes no word -/
theorem split_letters (s : Str) (look : TLook) (ids : Option (List Str)) : Same ((splitWords s).flatten.map (letterTok look ids)) (s.map (letterTok look ids)) := by
  have h : ∀ l : List Str, Same ((l.map fun w => if strIsSpace w then c!" " else w).flatten.map (letterTok look ids)) (l.flatten.map (letterTok look ids)) := by
    intro l
    induction l with
    | nil => exact .refl _
    | cons w l ih =>
      rw [List.map_cons, List.flatten_cons, List.flatten_cons, List.map_append, List.map_append]
      refine .append ?_ ih
      split
      · rename_i hw
        exact (letters_blank (by simp) (by decide)).trans (letters_blank (blank_word hw).1 (blank_word hw).2).symm
      · exact .refl _
  have h1 := h (s.splitBy fun a b => (a == ' ') == (b == ' '))
  rw [List.flatten_splitBy] at h1
  exact h1

theorem src_letters (i : ParSrc) : Same ((itemToks i.item).flatMap (tokWith pieceLetters)) i.letters := by
  cases i with
  | br => exact .refl _
  | skip => exact .refl _
  | text s look ids => exact (same_letters _ look ids).symm.trans (split_letters s look ids)

theorem line_letters (l : TLine × Bool) : Same (lineLetters l) ((lineToks l).flatMap (tokWith pieceLetters)) := by
  unfold lineLetters lineToks
  rw [List.flatMap_append]
  refine .append ?_ (.refl _)
  rw [List.flatMap_assoc]
  exact .flatMap fun p _ => same_letters p.words p.look p.ids

/-- **C20** for the texts as they are written: read letter by letter, with white space and line ends as separators, the lines of a finished paragraph
have the words of the texts, every letter with the style and ids of its text -/
theorem C20_letters (M : Metrics) (cfg : TCfg) (rects : List (Rat × Rat)) (src : List ParSrc) (hc : cfg.content = src.map ParSrc.item)
    (hfin : (textRuns M cfg rects TPos.init).1.finished = true) :
    wordsOf ((textRuns M cfg rects TPos.init).2.flatten.flatMap lineLetters) = wordsOf (src.flatMap ParSrc.letters) := by
  have h0 := C20_words M cfg rects hfin
  have h1 : wordsOf (((textRuns M cfg rects TPos.init).2.flatten.flatMap lineToks).flatMap (tokWith pieceLetters)) =
      wordsOf ((cfg.content.flatMap itemToks).flatMap (tokWith pieceLetters)) := by
    rw [wordsOf_with, wordsOf_with, h0]
  rw [List.flatMap_assoc, List.flatMap_assoc, hc, List.flatMap_map] at h1
  rw [(Same.flatMap fun l _ => line_letters l).words, h1]
  exact (Same.flatMap fun i _ => src_letters i).words

/-- **C20**: no word of a text is white space, and none has a blank in it besides others -/
theorem C20_split (s : Str) : ∀ w ∈ splitWords s, w = c!" " ∨ (w ≠ [] ∧ ' ' ∉ w ∧ ∃ c ∈ w, c.toNat ∉ whiteSpace) := by
  intro w hw
  rcases splitWords_blank s w hw with h | h
  · exact .inl h
  · refine .inr ?_
    unfold splitWords at hw
    obtain ⟨v, hv, rfl⟩ := List.mem_map.1 hw
    by_cases hs : strIsSpace v = true
    · rw [if_pos hs] at h; simp at h
    · rw [if_neg hs] at h ⊢
      have hne : v ≠ [] := fun e => List.nil_notMem_splitBy _ _ (e ▸ hv)
      refine ⟨hne, h, ?_⟩
      by_contra hall
      apply hs
      simp only [strIsSpace, Bool.and_eq_true, Bool.not_eq_true', List.isEmpty_eq_false_iff, List.all_eq_true]
      refine ⟨hne, fun c hc => ?_⟩
      by_contra hcs
      exact hall ⟨c, hc, fun h => hcs ((pyIsSpace_iff c).2 h)⟩

example : splitWords c!"  one two   th" = [c!" ", c!"one", c!" ", c!"two", c!" ", c!"th"] := by decide +kernel

/-- two texts in different styles with a word over both of them, in narrow rectangles -/
def lettersSrc : List ParSrc := [.text c!"one  two th" (samplePart [] none).look none, .text c!"ree four" (samplePart [] none).look (some [c!"x"]), .br, .text c!" five" (samplePart [] none).look none]

def lettersCfg : TCfg := ⟨lettersSrc.map ParSrc.item, 0, c!"l", 1, none⟩

example : (textRuns (fun _ _ _ => 1 / 10) lettersCfg [(4, 6), (7, 100)] TPos.init).1.finished = true ∧
    ((textRuns (fun _ _ _ => 1 / 10) lettersCfg [(4, 6), (7, 100)] TPos.init).2.flatten.map fun l => (l.1.parts.flatMap fun p => p.words).flatten) ≠ [] ∧
    (wordsOf (lettersSrc.flatMap ParSrc.letters)).map (fun w => w.map Prod.fst) = [c!"one", c!"two", c!"three", c!"four", c!"five"] := by decide +kernel

end Verif
