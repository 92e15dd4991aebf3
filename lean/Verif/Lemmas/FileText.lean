import Verif.Spec.Glyphs
import Verif.Lemmas.UsedFonts
import Verif.Lemmas.TextMarksPlace
import Verif.Props.C68_Baselines
import Verif.Props.C67_TextMarks
import Verif.Lemmas.InWidth
/-! The words of a paragraph and of the strings shown for it. -/
namespace Verif
open Spec

/-- two sequences that read the same wherever they are -/
def Same {W : Type} (a b : List (WTok W)) : Prop := ∀ st, a.foldl wordStep st = b.foldl wordStep st

theorem Same.refl {W : Type} (a : List (WTok W)) : Same a a := fun _ => rfl
theorem Same.symm {W : Type} {a b : List (WTok W)} (h : Same a b) : Same b a := fun st => (h st).symm
theorem Same.trans {W : Type} {a b c : List (WTok W)} (h : Same a b) (h' : Same b c) : Same a c := fun st => (h st).trans (h' st)

theorem Same.append {W : Type} {a b c d : List (WTok W)} (h : Same a b) (h' : Same c d) : Same (a ++ c) (b ++ d) := by
  intro st
  rw [List.foldl_append, List.foldl_append, h, h']

theorem Same.cons {W : Type} {a b : List (WTok W)} (t : WTok W) (h : Same a b) : Same (t :: a) (t :: b) := by
  intro st
  rw [List.foldl_cons, List.foldl_cons, h]

theorem Same.flatMap {W X : Type} {f g : X → List (WTok W)} : ∀ {l : List X}, (∀ x ∈ l, Same (f x) (g x)) → Same (l.flatMap f) (l.flatMap g) := by
  intro l
  induction l with
  | nil => intro _; exact .refl _
  | cons x l ih => intro h; exact (h x (by simp)).append (ih fun y hy => h y (by simp [hy]))

theorem same_sep_sep {W : Type} (l : List (WTok W)) : Same (.sep :: .sep :: l) (.sep :: l) := by
  intro st
  simp only [List.foldl_cons]
  rw [wordStep_sep_idem]

theorem Same.words {W : Type} {a b : List (WTok W)} (h : Same a b) : wordsOf a = wordsOf b := by
  unfold wordsOf wordState
  rw [h.append (.refl _)]

/-- blanks are a separator -/
theorem same_blanks : ∀ {w : Str}, w ≠ [] → (∀ c ∈ w, pyIsSpace c = true) → Same (w.map charTok) [.sep] := by
  intro w
  induction w with
  | nil => intro h; exact absurd rfl h
  | cons c w ih =>
    intro _ h
    have e : charTok c = .sep := by rw [charTok, if_pos (h c (by simp))]
    rw [List.map_cons, e]
    cases w with
    | nil => exact .refl _
    | cons d w => exact ((ih (by simp) fun x hx => h x (by simp [hx])).cons _).trans (same_sep_sep _)

/-! ### Characters and words -/

theorem wordState_snoc {W : Type} (l : List (WTok W)) (t : WTok W) : wordState (l ++ [t]) = wordStep (wordState l) t := by
  unfold wordState
  rw [List.foldl_append]
  rfl

/-- the characters of a sequence without its separators -/
def tokWords {W : Type} : List (WTok W) → List W := List.filterMap fun
  | .word w => some w
  | .sep => none

theorem wordState_flatten {W : Type} (l : List (WTok W)) : (wordState l).1.flatten ++ (wordState l).2 = tokWords l := by
  induction l using List.reverseRecOn with
  | nil => rfl
  | append_singleton l t ih =>
    rw [wordState_snoc]
    unfold tokWords at ih ⊢
    rw [List.filterMap_append, ← ih]
    cases t with
    | word w => simp [wordStep]
    | sep =>
      simp only [wordStep]
      split
      · simp
      · simp

theorem wordsOf_flatten {W : Type} (l : List (WTok W)) : (wordsOf l).flatten = tokWords l := by
  have h := wordState_flatten (l ++ [.sep])
  have : (wordState (l ++ [.sep])).2 = [] := by
    rw [wordState_snoc]
    simp only [wordStep]
    split
    · rename_i h; simpa using h
    · rfl
  rw [this, List.append_nil] at h
  rw [wordsOf, h]
  simp [tokWords]

theorem tokWords_append {W : Type} (a b : List (WTok W)) : tokWords (a ++ b) = tokWords a ++ tokWords b := by simp [tokWords]

theorem tokWords_chars (s : Str) : tokWords (s.map charTok) = s.filter fun c => !pyIsSpace c := by
  induction s with
  | nil => rfl
  | cons c s ih =>
    unfold tokWords at ih ⊢
    by_cases h : pyIsSpace c = true
    · simp [charTok, h, ← ih]
    · simp [charTok, h, ← ih]

/-! ### Pieces and characters -/

/-- the characters of a piece -/
def pieceChars (p : Piece) : List (WTok Char) := p.1.map charTok

/-- the characters of a piece or a separator -/
def tokChars : WTok Piece → List (WTok Char)
  | .sep => [.sep]
  | .word p => pieceChars p

/-- the characters of words being read -/
def stateChars (st : List (List Piece) × List Piece) : List (WTok Char) :=
  (st.1.flatMap fun ps => ps.flatMap pieceChars ++ [.sep]) ++ st.2.flatMap pieceChars

theorem wordState_closed : ∀ (l : List (List Piece)), (wordState (stateChars (l, []))).2 = [] := by
  intro l
  rcases List.eq_nil_or_concat l with rfl | ⟨l, a, rfl⟩
  · rfl
  · simp only [stateChars, List.concat_eq_append, List.flatMap_append, List.flatMap_cons, List.flatMap_nil, List.append_nil]
    rw [← List.append_assoc, wordState_snoc]
    simp only [wordStep]
    split
    · rename_i h; simpa using h
    · rfl

theorem wordState_chars (l : List (WTok Piece)) : wordState (l.flatMap tokChars) = wordState (stateChars (wordState l)) := by
  induction l using List.reverseRecOn with
  | nil => rfl
  | append_singleton l t ih =>
    rw [wordState_snoc, List.flatMap_append, wordState_append, ih, ← wordState_append]
    cases t with
    | word p =>
      simp [wordStep, stateChars, tokChars]
    | sep =>
      simp only [wordStep, List.flatMap_cons, List.flatMap_nil, List.append_nil, tokChars]
      generalize wordState l = st
      obtain ⟨d, cur⟩ := st
      cases cur with
      | nil =>
        simp only [List.isEmpty_nil, if_true]
        rw [wordState_snoc]
        have := wordState_closed d
        simp [wordStep, this]
      | cons a cur => simp [stateChars]

theorem wordsOf_chars (l : List (WTok Piece)) : wordsOf (l.flatMap tokChars) = (wordState (stateChars (wordsOf l, []))).1 := by
  have e : wordState (l ++ [.sep]) = (wordsOf l, []) := by
    have : (wordState (l ++ [.sep])).2 = [] := by
      rw [wordState_snoc]
      simp only [wordStep]
      split
      · rename_i h; simpa using h
      · rfl
    rw [← this]; rfl
  rw [← e, ← wordState_chars]
  simp [wordsOf, tokChars]

/-- the words in characters only depend on the words in pieces -/
theorem words_chars {a b : List (WTok Piece)} (h : wordsOf a = wordsOf b) : wordsOf (a.flatMap tokChars) = wordsOf (b.flatMap tokChars) := by
  rw [wordsOf_chars, wordsOf_chars, h]

/-- the characters of a line -/
def lineChars (l : TLine × Bool) : List (WTok Char) := (l.1.parts.flatMap fun p => p.words.flatten.map charTok) ++ [.sep]

theorem same_pieces (ws : List Str) (look : TLook) (ids : Option (List Str)) :
    Same (ws.flatten.map charTok) ((ws.map fun w => pieceTok (w, look, ids)).flatMap tokChars) := by
  induction ws with
  | nil => exact .refl _
  | cons w ws ih =>
    rw [List.flatten_cons, List.map_append, List.map_cons, List.flatMap_cons]
    refine .append ?_ ih
    unfold pieceTok
    split
    · rename_i h
      simp only [strIsSpace, Bool.and_eq_true, Bool.not_eq_true', List.isEmpty_eq_false_iff, List.all_eq_true] at h
      exact same_blanks h.1 h.2
    · exact .refl _

theorem same_line (l : TLine × Bool) : Same (lineChars l) ((lineToks l).flatMap tokChars) := by
  unfold lineChars lineToks
  rw [List.flatMap_append]
  refine .append ?_ (.refl _)
  rw [List.flatMap_assoc]
  exact .flatMap fun p _ => same_pieces p.words p.look p.ids

theorem same_item (i : TItem) : Same (itemChars i) ((itemToks i).flatMap tokChars) := by
  cases i with
  | br => exact .refl _
  | skip => exact .refl _
  | text ws look ids => exact same_pieces ws look ids

/-- the lines of a finished paragraph have the words of its content, in characters -/
theorem lines_chars (M : Metrics) (cfg : TCfg) (rects : List (Rat × Rat)) (hfin : (textRuns M cfg rects TPos.init).1.finished = true) :
    wordsOf ((textRuns M cfg rects TPos.init).2.flatten.flatMap lineChars) = contentWordsOf cfg.content := by
  have h1 := words_chars (C20_words M cfg rects hfin)
  rw [List.flatMap_assoc, List.flatMap_assoc] at h1
  rw [(Same.flatMap fun l _ => same_line l).words, h1]
  exact (Same.flatMap fun i _ => (same_item i).symm).words

/-! ### The strings shown -/

theorem shown_latin {s : Str} (h : ∀ c ∈ s, isLatin c = true) : shownToks (bytesOf s) = s.map charTok := by
  unfold shownToks bytesOf
  rw [List.map_map]
  refine List.map_congr_left ?_
  intro c hc
  have hl := h c hc
  have : (latin1 c).toNat = c.toNat := latin1_toNat (by simpa [isLatin] using hl)
  simp only [Function.comp]
  rw [this, Char.ofNat_toNat]

theorem eol_same : ∀ (b : Bytes), Same (shownToks (eolFrom false b)) (shownToks b) ∧
    Same (.sep :: shownToks (eolFrom true b)) (.sep :: shownToks b) := by
  have h13 : charTok (Char.ofNat (13 : UInt8).toNat) = .sep := by decide
  have h10 : charTok (Char.ofNat (10 : UInt8).toNat) = .sep := by decide
  intro b
  induction b with
  | nil => exact ⟨.refl _, .refl _⟩
  | cons c b ih =>
    obtain ⟨i1, i2⟩ := ih
    simp only [eolFrom]
    by_cases hc : c = 13
    · subst hc
      simp only [if_true]
      simp only [shownToks, List.map_cons, h13, h10] at i1 i2 ⊢
      exact ⟨i2, i2.cons _⟩
    · simp only [hc, if_false]
      by_cases h : c = 10
      · subst h
        simp only [Bool.false_eq_true, false_and, if_false, and_self, if_true]
        refine ⟨i1.cons _, ?_⟩
        simp only [shownToks, List.map_cons, h10]
        exact (Same.cons _ i1).trans (same_sep_sep _).symm
      · simp only [h, and_false, if_false]
        exact ⟨i1.cons _, (i1.cons _).cons _⟩

/-- events that show no text -/
def Event.quiet : Event → Prop
  | .text .. => False
  | _ => True

theorem eventToks_quiet : ∀ (l m : List Event) place, (∀ e ∈ l, Event.quiet e) → eventToks place (l ++ m) = eventToks place m := by
  intro l
  induction l with
  | nil => intro m place _; rfl
  | cons e l ih =>
    intro m place h
    have h1 := ih m place fun x hx => h x (by simp [hx])
    have h2 := h e (by simp)
    cases e with
    | text => exact h2.elim
    | fill => exact h1
    | stroke => exact h1
    | xobject => exact h1

theorem deco_quiet {F : TFmt} {gs : GS} {d : Deco} {e : Event} (h : DecoEvent F gs d e) : Event.quiet e := by
  cases d with
  | back k => obtain ⟨g, rfl, -⟩ := h; trivial
  | under k => obtain ⟨g, rfl, -⟩ := h; trivial

theorem part_toks {F : TFmt} {E : Encs} {enc : Option (Str × Str)} {M : Metrics} {tm : List Bytes} {g0 : GS} {p : TPart} {f : Rat}
    {mv : List (Bytes × Bytes)} {e : Event} (hp : p.look.enc = none) (h : ItemEvent F E enc M tm g0 (.part p f mv) e) :
    ∃ gs s, e = .text gs tm mv s ∧ Same (shownToks s) (p.words.flatten.map charTok) := by
  obtain ⟨gs, b, rfl, -, -, h1, h2, -⟩ := h
  refine ⟨gs, _, rfl, (eol_same b).1.trans ?_⟩
  rw [PartShows, hp] at h1
  simp only at h1
  rw [h1, shown_latin (h2 hp)]
  exact .refl _

/-- the parts of a line -/
theorem parts_toks {F : TFmt} {E : Encs} {enc : Option (Str × Str)} {M : Metrics} {tm : List Bytes} {g0 : GS} {f : Rat}
    {mv : List (Bytes × Bytes)} (rest : List Event) (cs : List (WTok Char))
    (hrest : ∀ place, (place = none ∨ ∃ m, place = some (tm, m) ∧ m.length ≤ mv.length) → Same (eventToks place rest) (.sep :: cs)) :
    ∀ (parts : List TPart) (evs : List Event) place, (∀ p ∈ parts, p.look.enc = none) →
      List.Forall₂ (ItemEvent F E enc M tm g0) ((parts.filter fun p => p.words.flatten ≠ []).map fun p => .part p f mv) evs →
      (place = none ∨ ∃ m, place = some (tm, m) ∧ m.length ≤ mv.length) →
      Same (eventToks place (evs ++ rest)) ((if place = some (tm, mv) then [] else [.sep]) ++ (parts.flatMap fun p => p.words.flatten.map charTok) ++ .sep :: cs) := by
  intro parts
  induction parts with
  | nil =>
    intro evs place _ h hp
    cases h
    split
    · exact hrest place hp
    · exact (hrest place hp).trans (same_sep_sep _).symm
  | cons p parts ih =>
    intro evs place he h hp
    by_cases hw : p.words.flatten ≠ []
    · rw [List.filter_cons_of_pos (by simpa using hw), List.map_cons] at h
      cases h with
      | cons h1 h2 =>
        obtain ⟨gs, s, rfl, hs⟩ := part_toks (he p (by simp)) h1
        have := ih _ (some (tm, mv)) (fun q hq => he q (by simp [hq])) h2 (Or.inr ⟨mv, rfl, le_refl _⟩)
        simp only [List.cons_append, eventToks, List.flatMap_cons]
        rw [if_pos rfl] at this
        refine Same.trans (Same.append (.append (.refl _) hs) this) ?_
        simp only [List.append_assoc, List.nil_append]
        exact .refl _
    · rw [List.filter_cons_of_neg (by simpa using hw)] at h
      have := ih _ place (fun q hq => he q (by simp [hq])) h hp
      have e : p.words.flatten = [] := by simpa using hw
      rw [List.flatMap_cons, e]
      exact this

theorem lineMoves_length (F : TFmt) (cfg : TCfg) (width : Rat) (l : TLine) (g : Geo) : 0 < (lineMoves F cfg width l g).length := by
  unfold lineMoves
  split <;> simp

theorem forall2_cut {α β : Type} {R : α → β → Prop} : ∀ {a b : List α} {l : List β}, List.Forall₂ R (a ++ b) l →
    ∃ m n, l = m ++ n ∧ List.Forall₂ R a m ∧ List.Forall₂ R b n := by
  intro a
  induction a with
  | nil => intro b l h; exact ⟨[], l, rfl, .nil, h⟩
  | cons x a ih =>
    intro b l h
    cases h with
    | cons h1 h2 =>
      obtain ⟨m, n, rfl, h3, h4⟩ := ih h2
      exact ⟨_ :: m, n, rfl, .cons h1 h3, h4⟩

/-- the lines of a paragraph without a list, as they are shown -/
theorem lines_toks {F : TFmt} {E : Encs} {enc : Option (Str × Str)} {M : Metrics} {tm : List Bytes} {g0 : GS} {cfg : TCfg} {width : Rat}
    (hl : cfg.list = none) : ∀ (ls : List (TLine × Bool)) (g : Geo) (mv : List (Bytes × Bytes)) (evs : List Event) place,
      (∀ l ∈ ls, ∀ p ∈ l.1.parts, p.look.enc = none) → List.Forall₂ (ItemEvent F E enc M tm g0) (runItems F cfg width ls g mv) evs →
      (place = none ∨ ∃ m, place = some (tm, m) ∧ m.length ≤ mv.length) →
      Same (eventToks place evs) (.sep :: ls.flatMap lineChars) := by
  intro ls
  induction ls with
  | nil => intro g mv evs place _ h _; cases h; exact .refl _
  | cons l ls ih =>
    intro g mv evs place he h hp
    simp only [runItems, lineItems, hl, List.nil_append] at h
    obtain ⟨e1, e2, rfl, h1, h2⟩ := forall2_cut h
    have hlen := lineMoves_length F cfg width l.1 g
    have hp' : place = none ∨ ∃ m, place = some (tm, m) ∧ m.length ≤ (mv ++ lineMoves F cfg width l.1 g).length := by
      rcases hp with hp | ⟨m, hp, hm⟩
      · exact Or.inl hp
      · exact Or.inr ⟨m, hp, by rw [List.length_append]; omega⟩
    have hne : place ≠ some (tm, mv ++ lineMoves F cfg width l.1 g) := by
      rintro rfl
      rcases hp with hp | ⟨m, hp, hm⟩
      · cases hp
      · simp only [Option.some.injEq, Prod.mk.injEq, true_and] at hp
        subst hp
        rw [List.length_append] at hm
        omega
    have := parts_toks e2 (ls.flatMap lineChars)
      (fun place' hpl => ih (g.next cfg width l.1) (mv ++ lineMoves F cfg width l.1 g) e2 place' (fun l' hl' => he l' (by simp [hl'])) h2 hpl)
      l.1.parts e1 place (he l (by simp)) h1 hp'
    rw [if_neg hne] at this
    simpa [lineChars] using this

/-! ### How the characters are shown -/

/-- the characters of a line, with the fonts that have the names -/
def lineGlyphs (F : TFmt) (font : Bytes → Option Bytes) (l : TLine × Bool) : List Glyph :=
  l.1.parts.flatMap fun p => lookGlyphs F.b F.comps (font (bytesOf p.look.st.ref)) p.look p.words.flatten

theorem eventGlyphs_append (font : Bytes → Option Bytes) (a b : List Event) : eventGlyphs font (a ++ b) = eventGlyphs font a ++ eventGlyphs font b := by
  unfold eventGlyphs
  rw [List.flatMap_append]

theorem eventGlyphs_quiet (font : Bytes → Option Bytes) : ∀ (l : List Event), (∀ e ∈ l, Event.quiet e) → eventGlyphs font l = [] := by
  intro l h
  unfold eventGlyphs
  rw [List.flatMap_eq_nil_iff]
  intro e he
  have := h e he
  cases e with
  | text => exact this.elim
  | fill => rfl
  | stroke => rfl
  | xobject => rfl

/-- the characters of a paragraph, with the fonts that have the names -/
def namedGlyphs (F : TFmt) (font : Bytes → Option Bytes) (content : List TItem) : List Glyph := content.flatMap fun
  | .text ws look _ => lookGlyphs F.b F.comps (font (bytesOf look.st.ref)) look ws.flatten
  | _ => []

theorem lookGlyphs_append (F : TFmt) (font : Option Bytes) (look : TLook) (a b : Str) :
    lookGlyphs F.b F.comps font look (a ++ b) = lookGlyphs F.b F.comps font look a ++ lookGlyphs F.b F.comps font look b := by
  unfold lookGlyphs
  rw [List.filter_append, List.map_append]

theorem pieces_glyphs (F : TFmt) (font : Bytes → Option Bytes) (look : TLook) (ids : Option (List Str)) : ∀ (ws : List Str),
    (tokWords (ws.map fun w => pieceTok (w, look, ids))).flatMap (fun p => lookGlyphs F.b F.comps (font (bytesOf p.2.1.st.ref)) p.2.1 p.1) =
      lookGlyphs F.b F.comps (font (bytesOf look.st.ref)) look ws.flatten := by
  intro ws
  induction ws with
  | nil => rfl
  | cons w ws ih =>
    rw [List.map_cons, List.flatten_cons, lookGlyphs_append, ← ih, ← List.singleton_append, tokWords_append, List.flatMap_append]
    congr 1
    unfold pieceTok
    split
    · rename_i h
      simp only [strIsSpace, Bool.and_eq_true, Bool.not_eq_true', List.isEmpty_eq_false_iff, List.all_eq_true] at h
      have : w.filter (fun c => !pyIsSpace c) = [] := List.filter_eq_nil_iff.2 fun c hc => by simp [h.2 c hc]
      simp [tokWords, lookGlyphs, this]
    · simp [tokWords]

/-- the lines of a finished paragraph have the characters of its content -/
theorem content_glyphs (F : TFmt) (font : Bytes → Option Bytes) (M : Metrics) (cfg : TCfg) (rects : List (Rat × Rat))
    (hfin : (textRuns M cfg rects TPos.init).1.finished = true) :
    (textRuns M cfg rects TPos.init).2.flatten.flatMap (lineGlyphs F font) = namedGlyphs F font cfg.content := by
  have h := congrArg List.flatten (C20_words M cfg rects hfin)
  rw [wordsOf_flatten, wordsOf_flatten] at h
  have h := congrArg (List.flatMap fun p => lookGlyphs F.b F.comps (font (bytesOf p.2.1.st.ref)) p.2.1 p.1) h
  have e1 : ∀ ls : List (TLine × Bool), (tokWords (ls.flatMap lineToks)).flatMap (fun p => lookGlyphs F.b F.comps (font (bytesOf p.2.1.st.ref)) p.2.1 p.1) =
      ls.flatMap (lineGlyphs F font) := by
    intro ls
    induction ls with
    | nil => rfl
    | cons l ls ih =>
      rw [List.flatMap_cons, tokWords_append, List.flatMap_append, ih, List.flatMap_cons]
      congr 1
      unfold lineToks lineGlyphs
      rw [tokWords_append, List.flatMap_append]
      have : ∀ ps : List TPart, (tokWords (ps.flatMap fun p => p.words.map fun w => pieceTok (w, p.look, p.ids))).flatMap
          (fun p => lookGlyphs F.b F.comps (font (bytesOf p.2.1.st.ref)) p.2.1 p.1) = ps.flatMap fun p => lookGlyphs F.b F.comps (font (bytesOf p.look.st.ref)) p.look p.words.flatten := by
        intro ps
        induction ps with
        | nil => rfl
        | cons p ps ih => rw [List.flatMap_cons, tokWords_append, List.flatMap_append, ih, pieces_glyphs, List.flatMap_cons]
      rw [this]
      simp [tokWords]
  have e2 : ∀ is : List TItem, (tokWords (is.flatMap itemToks)).flatMap (fun p => lookGlyphs F.b F.comps (font (bytesOf p.2.1.st.ref)) p.2.1 p.1) =
      namedGlyphs F font is := by
    intro is
    unfold namedGlyphs
    induction is with
    | nil => rfl
    | cons i is ih =>
      rw [List.flatMap_cons, tokWords_append, List.flatMap_append, ih, List.flatMap_cons]
      congr 1
      cases i with
      | br => rfl
      | skip => rfl
      | text ws look ids => exact pieces_glyphs F font look ids ws
  rw [e1, e2] at h
  exact h

theorem part_glyphs {F : TFmt} {E : Encs} {enc : Option (Str × Str)} {M : Metrics} {tm : List Bytes} {g0 : GS} {p : TPart} {f : Rat}
    {mv : List (Bytes × Bytes)} {e : Event} (hp : p.look.enc = none) (h : ItemEvent F E enc M tm g0 (.part p f mv) e) (font : Bytes → Option Bytes) :
    eventGlyphs font [e] = lookGlyphs F.b F.comps (font (bytesOf p.look.st.ref)) p.look p.words.flatten := by
  obtain ⟨gs, s, e1, hs⟩ := part_toks hp h
  obtain ⟨gs', b, e2, hg, -⟩ := h
  subst e1
  injection e2 with e2 e3 e4 e5
  subst e2
  have hc : ((s.map fun b => Char.ofNat b.toNat).filter fun c => !pyIsSpace c) = p.words.flatten.filter fun c => !pyIsSpace c := by
    rw [← tokWords_chars, ← tokWords_chars, List.map_map]
    have := congrArg List.flatten hs.words
    rw [wordsOf_flatten, wordsOf_flatten] at this
    exact this
  simp only [eventGlyphs, List.flatMap_cons, List.flatMap_nil, List.append_nil, hc, lookGlyphs]
  rw [hg]
  rfl

theorem parts_glyphs {F : TFmt} {E : Encs} {enc : Option (Str × Str)} {M : Metrics} {tm : List Bytes} {g0 : GS} {f : Rat}
    {mv : List (Bytes × Bytes)} (font : Bytes → Option Bytes) : ∀ (parts : List TPart) (evs : List Event), (∀ p ∈ parts, p.look.enc = none) →
      List.Forall₂ (ItemEvent F E enc M tm g0) ((parts.filter fun p => p.words.flatten ≠ []).map fun p => .part p f mv) evs →
      eventGlyphs font evs = parts.flatMap fun p => lookGlyphs F.b F.comps (font (bytesOf p.look.st.ref)) p.look p.words.flatten := by
  intro parts
  induction parts with
  | nil => intro evs _ h; cases h; rfl
  | cons p parts ih =>
    intro evs he h
    by_cases hw : p.words.flatten ≠ []
    · rw [List.filter_cons_of_pos (by simpa using hw), List.map_cons] at h
      cases h with
      | cons h1 h2 =>
        rw [← List.singleton_append, eventGlyphs_append, part_glyphs (he p (by simp)) h1, ih _ (fun q hq => he q (by simp [hq])) h2, List.flatMap_cons]
    · rw [List.filter_cons_of_neg (by simpa using hw)] at h
      have e : p.words.flatten = [] := by simpa using hw
      rw [ih _ (fun q hq => he q (by simp [hq])) h, List.flatMap_cons, e]
      rfl

/-- the lines of a paragraph without a list, as they are shown -/
theorem lines_glyphs {F : TFmt} {E : Encs} {enc : Option (Str × Str)} {M : Metrics} {tm : List Bytes} {g0 : GS} {cfg : TCfg} {width : Rat}
    (hl : cfg.list = none) (font : Bytes → Option Bytes) : ∀ (ls : List (TLine × Bool)) (g : Geo) (mv : List (Bytes × Bytes)) (evs : List Event),
      (∀ l ∈ ls, ∀ p ∈ l.1.parts, p.look.enc = none) → List.Forall₂ (ItemEvent F E enc M tm g0) (runItems F cfg width ls g mv) evs →
      eventGlyphs font evs = ls.flatMap (lineGlyphs F font) := by
  intro ls
  induction ls with
  | nil => intro g mv evs _ h; cases h; rfl
  | cons l ls ih =>
    intro g mv evs he h
    simp only [runItems, lineItems, hl, List.nil_append] at h
    obtain ⟨e1, e2, rfl, h1, h2⟩ := forall2_cut h
    rw [eventGlyphs_append, parts_glyphs font _ _ (he l (by simp)) h1, ih _ _ _ (fun l' hl' => he l' (by simp [hl'])) h2]
    rfl

/-- the parts that are shown are parts of the lines -/
theorem runItems_parts {F : TFmt} {cfg : TCfg} {width : Rat} (hn : cfg.list = none) : ∀ (ls : List (TLine × Bool)) (g : Geo) (mv : List (Bytes × Bytes)),
    ∀ it ∈ runItems F cfg width ls g mv, ∃ l ∈ ls, ∃ p ∈ l.1.parts, ∃ f mv', it = .part p f mv' := by
  intro ls
  induction ls with
  | nil => intro g mv it h; simp [runItems] at h
  | cons l ls ih =>
    intro g mv it h
    simp only [runItems, lineItems, hn, List.nil_append] at h
    rcases List.mem_append.1 h with h | h
    · obtain ⟨p, hp, rfl⟩ := List.mem_map.1 h
      exact ⟨l, by simp, p, (List.mem_filter.1 hp).1, _, _, rfl⟩
    · obtain ⟨l', h1, h2⟩ := ih _ _ it h
      exact ⟨l', by simp [h1], h2⟩

/-- text is shown in the reported fonts -/
def FacesOf (cfg : TCfg) (used : List (Str × Str)) (evs : List Event) : Prop :=
  ∀ gs tm mv s, Event.text gs tm mv s ∈ evs → ∃ x ∈ contentLooks cfg.content, x.st.font ∈ used ∧ gs.font.1 = bytesOf x.st.ref

theorem sep_space_cons (s : Str) : Sep (bytesOf (' ' :: s)) := sep_space s

theorem paragraphStream_sep (F : NumFmt) (x y : Rat) (text graphics : Str) : Sep (bytesOf (paragraphStream F x y text graphics)) := by
  unfold paragraphStream
  by_cases h : graphics = []
  · rw [if_pos h]
    by_cases h' : text = []
    · rw [if_pos h']; exact trivial
    · rw [if_neg h']; exact sep_space _
  · rw [if_neg h]; exact sep_space _

/-- a paragraph that can be read: it has no list, its fonts are those of the standard and its styles can be written -/
structure Readable (F : TFmt) (refOf : Str → Str → Str) (cfg : TCfg) : Prop where
  styles : StylesOk F refOf cfg
  looks : ∀ x ∈ contentLooks cfg.content, x.Ok ∧ x.enc = none
  list : cfg.list = none

/-! ### Where a run is shown -/

/-- the moves across, without a list -/
theorem mvAt_across {F : TFmt} {ε : Rat} (hd : F.Dec ε) {cfg : TCfg} (hn : cfg.list = none) {width : Rat} :
    ∀ (ls : List (TLine × Bool)) (g : Geo) (mv : List (Bytes × Bytes)) (x0 : Rat), numSum (mv.map Prod.fst) = some x0 →
      ∀ (i : Nat) l, ls[i]? = some l → (mvAt F cfg width ls g mv i).length = mv.length + i + 1 ∧
        ∃ x, numSum ((mvAt F cfg width ls g mv i).map Prod.fst) = some x ∧ (cfg.moved = false → cfg.indent = 0 → |x - x0| ≤ (i + 1 : Rat) * ε) := by
  intro ls
  induction ls with
  | nil => intro g mv x0 _ i l h; simp at h
  | cons l ls ih =>
    intro g mv x0 h0 i l' hi
    have hm : lineMoves F cfg width l.1 g = [(F.b (g.dx cfg width l.1), F.down (g.dy cfg l.1))] := by
      unfold lineMoves
      rw [if_neg (by rw [hn]; simp)]
    have h1 : numSum ((mv ++ lineMoves F cfg width l.1 g).map Prod.fst) = some (x0 + F.rnd (g.dx cfg width l.1)) := by
      rw [hm, List.map_append]
      exact numSum_append _ _ _ _ h0 (by unfold numSum; simp [hd.val])
    have hlen : (mv ++ lineMoves F cfg width l.1 g).length = mv.length + 1 := by rw [hm]; simp
    have hdx : cfg.moved = false → cfg.indent = 0 → g.dx cfg width l.1 = 0 := by
      intro h2 h3
      unfold Geo.dx Geo.adjusted TCfg.listIndent
      rw [hn, h2, h3]
      simp
    have herr : cfg.moved = false → cfg.indent = 0 → |F.rnd (g.dx cfg width l.1)| ≤ ε := by
      intro h2 h3
      have := hd.err (g.dx cfg width l.1)
      rw [hdx h2 h3] at this ⊢
      simpa using this
    cases i with
    | zero =>
      refine ⟨by rw [mvAt, hlen], _, by rw [mvAt]; exact h1, ?_⟩
      intro h2 h3
      have := herr h2 h3
      simpa using this
    | succ i =>
      obtain ⟨k1, x, k2, k3⟩ := ih (g.next cfg width l.1) _ _ h1 i l' (by simpa using hi)
      refine ⟨by rw [mvAt, k1, hlen]; omega, x, k2, ?_⟩
      intro h2 h3
      have a := k3 h2 h3
      have b := herr h2 h3
      rw [show x - x0 = (x - (x0 + F.rnd (g.dx cfg width l.1))) + F.rnd (g.dx cfg width l.1) by ring]
      refine le_trans (abs_add_le _ _) ?_
      push_cast
      linarith

/-- text is shown at `px` or further right, between `py` and `h` below it; and then `h` is not 0 -/
def PieceAt (F : TFmt) (cfg : TCfg) (px py h : Rat) (evs : List Event) : Prop :=
  ∀ ε, F.Signed ε → 0 ≤ cfg.lineHeight → 0 ≤ h ∧ ∀ gs tm mv s, Event.text gs tm mv s ∈ evs → ∃ x y, (Event.text gs tm mv s).origin = some (x, y) ∧
    py - h - (mv.length + 1) * ε ≤ y ∧ y ≤ py + (mv.length + 1) * ε ∧ (cfg.moved = false → cfg.indent = 0 → |x - px| ≤ (mv.length + 1) * ε) ∧
    (0 < cfg.lineHeight → 0 < h)

theorem curHeight_nonneg (M : Metrics) (cfg : TCfg) (hlh : 0 ≤ cfg.lineHeight) (width height : Rat) (pos : TPos) (hr : TReach M cfg pos) :
    0 ≤ (textRun M cfg width height pos).curHeight := by
  rw [(C22_height M cfg width height pos hr).1]
  obtain ⟨_, hp⟩ := hr.post
  have hheights := textRun_heights M cfg hlh width height pos hp.lastV
  generalize (textRun M cfg width height pos).lines = ls at *
  cases ls with
  | nil => exact le_refl _
  | cons l ls =>
    refine add_nonneg (by rw [← height_eq]; exact hheights l (by simp)) (List.sum_nonneg ?_)
    intro v hv
    obtain ⟨x, hx, rfl⟩ := List.mem_map.1 hv
    exact mul_nonneg (by rw [← height_eq]; exact hheights x (by simp [hx])) hlh

theorem forall2_right_mem {α β : Type} {R : α → β → Prop} {l : List α} {m : List β} (h : List.Forall₂ R l m) : ∀ b ∈ m, ∃ a ∈ l, R a b := by
  induction h with
  | nil => intro b hb; simp at hb
  | cons h _ ih =>
    intro b hb
    rcases List.mem_cons.1 hb with rfl | hb
    · exact ⟨_, by simp, h⟩
    · obtain ⟨a, ha, hab⟩ := ih b hb
      exact ⟨a, by simp [ha], hab⟩

theorem run_places {F : TFmt} {E : Encs} {enc : Option (Str × Str)} {M : Metrics} {cfg : TCfg} (hn : cfg.list = none) {width height : Rat} {pos : TPos}
    (hr : TReach M cfg pos) {correct : Bool} {px py : Rat} {g0 : GS} (hg0 : g0.cms = []) {evs : List Event}
    (h : List.Forall₂ (ItemEvent F E enc M (placeAt F px py) g0)
      (runItems F cfg width (textRun M cfg width height pos).lines ⟨false, 0, pos.isFirstLine, correct⟩ []) evs) :
    PieceAt F cfg px py (textRun M cfg width height pos).curHeight evs := by
  intro ε hd hlh
  refine ⟨curHeight_nonneg M cfg hlh width height pos hr, ?_⟩
  obtain ⟨_, hp⟩ := hr.post
  have hheights := textRun_heights M cfg hlh width height pos hp.lastV
  obtain ⟨hin, -⟩ := lineDepth_inside M cfg hlh width height pos hr (by intro lc l hc; rw [hn] at hc; cases hc)
  have hpos : 0 < cfg.lineHeight → (textRun M cfg width height pos).lines ≠ [] → 0 < (textRun M cfg width height pos).curHeight := fun h0 hne =>
    ((textRun_pos M cfg h0 width height pos hp.lastV hr.choose_spec.2).pos hne).1
  generalize (textRun M cfg width height pos).curHeight = H at *
  generalize (textRun M cfg width height pos).lines = ls at *
  let g : Geo := ⟨false, 0, pos.isFirstLine, correct⟩
  have hdown := mvAt_down hd (width := width) hlh ls g [] 0 0 hheights ⟨0, rfl, by simp⟩
  have hacross := mvAt_across hd.toDec hn (width := width) ls g [] 0 rfl
  have hpl := runItems_moves (F := F) (cfg := cfg) (width := width) (first := pos.isFirstLine)
    (fac := fun j => match ls[j]? with
      | some l => factorAt cfg width pos.isFirstLine j l
      | none => 1) (mvA := mvAt F cfg width ls g []) ls 0 g [] ⟨fun _ => ⟨rfl, rfl⟩, fun h => by omega⟩ (fun _ => rfl) (by
      intro i l hi
      simp only [Nat.zero_add, hi]
      exact ⟨trivial, trivial⟩)
  intro gs tm mv s he
  obtain ⟨it, hit, hev⟩ := forall2_right_mem h _ he
  obtain ⟨pl, hplm, hit1, hit2⟩ := forall2_right_mem hpl it hit
  have hjl := placed_line cfg pos.isFirstLine ls pl hplm
  cases hpp : pl.part with
  | none =>
    obtain ⟨lc, d, r, -, hmva⟩ := hit2 hpp
    have := (hacross pl.j pl.line hjl).1
    rw [hmva] at this
    simp only [List.length_cons, List.length_nil] at this
    have hj : pl.j = 1 := by omega
    obtain ⟨lc, d, r, rfl, -⟩ := hit2 hpp
    -- the text of a list is only shown by a list
    exfalso
    have key : ∀ (ls : List (TLine × Bool)) (g : Geo) (mv : List (Bytes × Bytes)), ShItem.bullet lc [(b!"0", d)] ∉ runItems F cfg width ls g mv := by
      intro ls
      induction ls with
      | nil => intro g mv; simp [runItems]
      | cons l ls ih =>
        intro g mv hm
        rw [runItems, List.mem_append] at hm
        rcases hm with hm | hm
        · unfold lineItems at hm
          rw [hn] at hm
          simp at hm
        · exact ih _ _ hm
    exact key _ _ _ hit
  | some p =>
    rw [hit1 p hpp] at hev
    obtain ⟨gs', b, e1, -, -, -, -, e2⟩ := hev
    injection e1 with e1 e3 e4 e5
    subst e1 e3 e4
    obtain ⟨y, y1, y2⟩ := hdown pl.j pl.line hjl
    rw [codeDepth_eq cfg width pos.isFirstLine correct (fun l hl => by rw [← height_eq]; exact hheights l hl) hjl] at y2
    obtain ⟨hlen, x, x1, x2⟩ := hacross pl.j pl.line hjl
    have hlt : pl.j < ls.length := (List.getElem?_eq_some_iff.1 hjl).1
    obtain ⟨d1, d2, -⟩ := hin pl.j hlt
    have ex := hd.err px
    have ey := hd.err py
    have hl : (((mvAt F cfg width ls g [] pl.j).length : Nat) : Rat) = pl.j + 1 := by rw [hlen]; simp
    refine ⟨F.rnd px + x, F.rnd py + y, ?_, ?_, ?_, ?_, fun h0 => hpos h0 (by intro e; rw [e] at hlt; simp at hlt)⟩
    · unfold placeAt Event.origin
      simp only [hg0 ▸ e2, true_and, if_true, hd.val, Option.bind_some, x1, y1, Option.map_some]
    · rw [hl]
      have a := abs_le.1 y2
      have b := abs_le.1 ey
      simp only [Nat.cast_zero, zero_add] at a
      linarith [a.1, a.2, b.1, b.2]
    · rw [hl]
      have a := abs_le.1 y2
      have b := abs_le.1 ey
      simp only [Nat.cast_zero, zero_add] at a
      linarith [a.1, a.2, b.1, b.2]
    · intro h1 h2
      rw [hl]
      have a := abs_le.1 (x2 h1 h2)
      have b := abs_le.1 ex
      rw [abs_le]
      constructor <;> linarith [a.1, a.2, b.1, b.2]

theorem PieceAt.quiet {F : TFmt} {cfg : TCfg} {px py h : Rat} {a b : List Event} (ha : ∀ e ∈ a, Event.quiet e) (hb : PieceAt F cfg px py h b) :
    PieceAt F cfg px py h (a ++ b) := by
  intro ε hd hlh
  obtain ⟨h1, h2⟩ := hb ε hd hlh
  refine ⟨h1, fun gs tm mv s he => ?_⟩
  rcases List.mem_append.1 he with he | he
  · exact absurd (ha _ he) (by simp [Event.quiet])
  · exact h2 gs tm mv s he

/-- events that show no image -/
def Event.plain : Event → Prop
  | .xobject .. => False
  | _ => True

theorem deco_plain {F : TFmt} {gs : GS} {d : Deco} {e : Event} (h : DecoEvent F gs d e) : Event.plain e := by
  cases d with
  | back k => obtain ⟨g, rfl, -⟩ := h; trivial
  | under k => obtain ⟨g, rfl, -⟩ := h; trivial

/-- the pieces of the lines of a paragraph at a place are shown, marked and noted as in C67: every part is shown on its line, which begins at `(X j, Y j)`; the
backgrounds and underlines that are painted are those of the pieces; the rectangles of an id are around the pieces that carry it; and the words are inside of the width -/
def RunMarked (F : TFmt) (M : Metrics) (cfg : TCfg) (px py width : Rat) (lines : List (TLine × Bool)) (ids : List (Str × List IdRect)) (evs : List Event) : Prop :=
  ∀ ε, F.Signed ε → 0 ≤ cfg.lineHeight → cfg.indent = 0 → (∀ w ∈ contentWords cfg.content, w = c!" " ∨ ' ' ∉ w) →
    ∃ (X Y : Nat → Rat) (tw : Nat → TPart → Rat) (marks : List Mark) (gs0 : GS) (drawn shown : List Event),
      marks = runMarks X Y (fun j p => shownWidth M (tw j p) p) 0 (lines.map Prod.fst) ∧ evs = drawn ++ shown ∧ gs0.cms = [placeAt F px py] ∧
      List.Forall₂ (DecoPainted F.comps (markErr ε) gs0) (marks.flatMap Mark.decos) drawn ∧
      List.Forall₂ (ShownAt (placeAt F px py) [] X Y tw) (placedFrom cfg false 0 lines) shown ∧
      (∀ id, List.Forall₂ (RectAround (markErr ε)) (marksOf id marks) ((dget id ids).getD [])) ∧ ids.map Prod.fst = firsts (markIds marks) ∧
      ((∀ f m c, 0 ≤ M f m c) → WordsWithin M cfg.align (wordErr ε) 0 width X tw lines ∧ ∀ l ∈ lines, l.1.align = cfg.align)

theorem placedFrom_list {cfg : TCfg} (h : cfg.list = none) (f f' : Bool) : ∀ (ls : List (TLine × Bool)) (j : Nat), placedFrom cfg f j ls = placedFrom cfg f' j ls := by
  intro ls
  induction ls with
  | nil => intro j; rfl
  | cons l ls ih => intro j; simp [placedFrom, h, ih]

/-- what a run of a paragraph puts on a page, executed -/
theorem text_chunk {F : TFmt} (hF : F.Ok) {E : Encs} (hE : E.Ok) {refOf : Str → Str → Str} {M : Metrics} {cfg : TCfg}
    {enc : Option (Str × Str)} (hr : Readable F refOf cfg) {width height : Rat} {pos : TPos} (hreach : TReach M cfg pos) {correct : Bool} {o : OutSt}
    (h : textOut F M E cfg enc width height pos correct = .ok o) (px py : Rat)
    (hl : ∀ c ∈ paragraphStream F.toNumFmt px py o.text o.graphics, isLatin c = true) :
    ∃ ops, OpsTo (paragraphStream F.toNumFmt px py o.text o.graphics) ops ∧ ∀ m : MS, m.path = [] → m.text = none → m.gs.cms = [] →
      ∃ gs evs, exec m ops = some (⟨gs, m.stack, [], none⟩, evs) ∧ gs.cms = [] ∧
        Same (eventToks none evs) (.sep :: (textRun M cfg width height pos).lines.flatMap lineChars) ∧
        PieceAt F cfg px py (textRun M cfg width height pos).curHeight evs ∧
        (∀ font, eventGlyphs font evs = (textRun M cfg width height pos).lines.flatMap (lineGlyphs F font)) ∧
        FacesOf cfg (textRun M cfg width height pos).used evs ∧ (∀ e ∈ evs, Event.plain e) ∧
        RunMarked F M cfg px py width (textRun M cfg width height pos).lines o.ids evs := by
  obtain ⟨_, hp⟩ := hreach.post
  have hu := textRun_used M cfg width height pos hp.lastV
  have hlat : ∀ c ∈ o.text, isLatin c = true := by
    intro c hc
    apply hl
    unfold paragraphStream
    rw [if_neg (c := o.text = []) (by rintro he; rw [he] at hc; simp at hc)]
    simp [hc]
  have hlooks : ∀ l ∈ (textRun M cfg width height pos).lines, ∀ p ∈ l.1.parts, p.look ∈ contentLooks cfg.content := fun l hl p hp =>
    (hu.lk l hl _ (List.mem_map_of_mem hp)).1
  have hlt : ListTextOk cfg enc := by intro lc hc; rw [hr.list] at hc; cases hc
  obtain ⟨tops, t1, t2, t3⟩ := textOut_ops_cms hF hE (hr.styles.cfgOk hlt) (fun l hl p hp => hr.styles.looks _ (hlooks l hl p hp)) h hlat
  obtain ⟨-, gt, i2, -, gops, i3, i4, i5⟩ := streamLines_marks hF _ 0 _ o (fun l hl p hp => (hr.looks _ (hlooks l hl p hp)).1) h
  have hgt : o.graphics = gt := by rw [i2]; rfl
  subst hgt
  obtain ⟨ops, q1, q2⟩ := paragraph_run_cms hF.1 px py t1 t2 i3 i4
  refine ⟨ops, q1, ?_⟩
  intro m hm hmt hmc
  obtain ⟨gs1, evs1, d1, -, -, -, -, d3⟩ := i5 ⟨{ m.gs with cms := m.gs.cms ++ [placeAt F px py] }, m.gs :: m.stack, [], none⟩
    (by constructor <;> intro c hc <;> simp [outInit] at hc) ⟨rfl, rfl, by simp [outInit], by simp [outInit], by simp [outInit]⟩
  obtain ⟨gs2, evs2, e1, ec, e2⟩ := t3 ⟨m.gs, m.stack, [], some (placeAt F px py, [])⟩ (placeAt F px py) [] rfl rfl
  obtain ⟨gs, hor, hgs⟩ := q2 m gs1 evs1 gs2 _ evs2 hm hmt d1 e1 rfl
  have hquiet : ∀ e ∈ evs1, Event.quiet e := by
    intro e he
    obtain ⟨d, -, hde⟩ := forall2_right_mem d3 e he
    exact deco_quiet hde
  have hgc : gs.cms = [] := by
    rcases hor with rfl | rfl
    · exact hmc
    · rw [ec]; exact hmc
  refine ⟨gs, evs1 ++ evs2, hgs, hgc, ?_, PieceAt.quiet hquiet (run_places hr.list hreach (g0 := m.gs) hmc e2), ?_, ?_, ?_, ?_⟩
  · rw [eventToks_quiet evs1 evs2 none hquiet]
    exact lines_toks hr.list _ _ _ _ _ (fun l hl p hp => (hr.looks _ (hlooks l hl p hp)).2) e2 (Or.inl rfl)
  · intro font
    rw [eventGlyphs_append, eventGlyphs_quiet font _ hquiet, List.nil_append]
    exact lines_glyphs hr.list font _ _ _ _ (fun l hl p hp => (hr.looks _ (hlooks l hl p hp)).2) e2
  · intro gs tm mv s he
    rcases List.mem_append.1 he with he | he
    · exact absurd (hquiet _ he) (by simp [Event.quiet])
    · obtain ⟨it, hit, hev⟩ := forall2_right_mem e2 _ he
      obtain ⟨l, hl, p, hp, f, mv', rfl⟩ := runItems_parts hr.list _ _ _ it hit
      obtain ⟨gs', b, e3, hg, -⟩ := hev
      injection e3 with e3
      subst e3
      obtain ⟨k1, k2⟩ := hu.lk l hl _ (List.mem_map_of_mem hp)
      exact ⟨p.look, k1, k2, by rw [hg]; rfl⟩
  · intro e he
    rcases List.mem_append.1 he with he | he
    · obtain ⟨d, -, hde⟩ := forall2_right_mem d3 e he
      exact deco_plain hde
    · obtain ⟨it, hit, hev⟩ := forall2_right_mem e2 _ he
      obtain ⟨l, hl, p, hp, f, mv', rfl⟩ := runItems_parts hr.list _ _ _ it hit
      obtain ⟨gs', b, rfl, -⟩ := hev
      trivial
  · intro ε hd hlh hind hw
    obtain ⟨X, Y, tw, marks, hmk, hex, hids, hkeys, hat⟩ := run_marks F hF ε hd E hE refOf M cfg enc hr.styles hlt (fun _ => hind) (fun h => absurd hr.list h) hlh
      (fun x hx => ⟨(hr.looks x hx).1, fun _ => (hr.looks x hx).2⟩) hw width height pos hreach correct (Or.inl hind) o h px py _ (encodeLatin_of hl)
    obtain ⟨gs', drawn, shown, hrun, hdeco, hshown⟩ := hex m hm hmt
    unfold execStream at hrun
    rw [q1.ops] at hrun
    simp only at hrun
    rw [hgs] at hrun
    simp only [Option.some.injEq, Prod.mk.injEq] at hrun
    rw [hmc] at hdeco hshown
    exact ⟨X, Y, tw, marks, _, drawn, shown, hmk, hrun.2, rfl, hdeco, placedFrom_list hr.list _ _ _ _ ▸ hshown, hids, hkeys, fun hM =>
      run_within hM hr.list (fun _ => hind) (le_of_eq hind.symm) (fun x hx _ => (hr.looks x hx).2) hw hreach (le_trans (abs_nonneg _) (hd.err 0)) hat⟩

/-! ### Several runs -/

theorem wordStep_closed {W : Type} {st : List (List W) × List W} (h : st.2 = []) : wordStep st .sep = st := by
  simp [wordStep, h]

theorem lines_closed (ls : List (TLine × Bool)) {st : List (List Char) × List Char} (h : st.2 = []) : ((ls.flatMap lineChars).foldl wordStep st).2 = [] := by
  induction ls generalizing st with
  | nil => exact h
  | cons l ls ih =>
    rw [List.flatMap_cons, List.foldl_append]
    apply ih
    rw [lineChars, List.foldl_append, List.foldl_cons, List.foldl_nil]
    simp only [wordStep]
    split
    · rename_i h; simpa using h
    · rfl

/-- the separators between the runs make no difference -/
theorem runs_words : ∀ (rs : List (List (TLine × Bool))) (evs : List (List Event)),
    List.Forall₂ (fun ls e => Same (eventToks none e) (.sep :: ls.flatMap lineChars)) rs evs →
    wordsOf (evs.flatMap (eventToks none)) = wordsOf (rs.flatten.flatMap lineChars) := by
  have key : ∀ (rs : List (List (TLine × Bool))) (evs : List (List Event)) (st : List (List Char) × List Char), st.2 = [] →
      List.Forall₂ (fun ls e => Same (eventToks none e) (.sep :: ls.flatMap lineChars)) rs evs →
      (evs.flatMap (eventToks none)).foldl wordStep st = (rs.flatten.flatMap lineChars).foldl wordStep st := by
    intro rs evs st hst h
    induction h generalizing st with
    | nil => rfl
    | @cons ls e rs evs h1 _ ih =>
      rw [List.flatMap_cons, List.foldl_append, h1, List.foldl_cons, wordStep_closed hst, List.flatten_cons, List.flatMap_append, List.foldl_append]
      exact ih _ (lines_closed ls hst)
  intro rs evs h
  unfold wordsOf wordState
  rw [List.foldl_append, List.foldl_append, key rs evs _ rfl h]

end Verif
