import Verif.Lemmas.FilePages
/-! C77: the text given to `PDF.text` can be read in the file. -/
namespace Verif
open Spec

/-! ### Characters and words -/

theorem eventChars_append (a b : List Event) : eventChars (a ++ b) = eventChars a ++ eventChars b := by
  unfold eventChars
  rw [List.flatMap_append]

theorem eventToks_chars : ∀ (l : List Event) place, tokWords (eventToks place l) = eventChars l := by
  intro l
  induction l with
  | nil => intro _; rfl
  | cons e l ih =>
    intro place
    cases e with
    | text gs tm mv s =>
      simp only [eventToks, tokWords_append, ih, eventChars, List.flatMap_cons]
      congr 1
      have : tokWords (if place = some (tm, mv) then [] else [WTok.sep (W := Char)]) = [] := by split <;> rfl
      rw [this, List.nil_append, shownToks, ← tokWords_chars, List.map_map]
      rfl
    | fill => exact ih place
    | stroke => exact ih place
    | xobject => exact ih place

theorem contentWords_chars (l : List TItem) : (contentWordsOf l).flatten = contentChars l := by
  rw [contentWordsOf, wordsOf_flatten, contentChars]
  induction l with
  | nil => rfl
  | cons i l ih =>
    rw [List.flatMap_cons, tokWords_append, ih, List.flatMap_cons]
    congr 1
    cases i with
    | br => rfl
    | skip => rfl
    | text ws look ids => exact tokWords_chars _

/-- pages in order -/
theorem paintedOn_all (runs : List TextShown) : (runs.map TextShown.page).Pairwise (· ≤ ·) → ∀ n, (∀ r ∈ runs, r.page < n) →
    (List.range n).flatMap (paintedOn runs) = runs.flatMap TextShown.evs := by
  induction runs using List.reverseRecOn with
  | nil => intro _ n _; simp [paintedOn, piecesOn]
  | append_singleton l x ih =>
    intro hs n hb
    obtain ⟨k, top, bottom, evs⟩ := x
    rw [List.map_append, List.pairwise_append] at hs
    have hk : k < n := hb ⟨k, top, bottom, evs⟩ (by simp)
    have hle : ∀ r ∈ l, r.page ≤ k := fun r hr => hs.2.2 r.page (List.mem_map_of_mem hr) k (by simp)
    have h1 := ih hs.1 (k + 1) fun r hr => Nat.lt_succ_of_le (hle r hr)
    obtain ⟨d, rfl⟩ : ∃ d, n = k + 1 + d := ⟨n - (k + 1), by omega⟩
    rw [List.flatMap_append, ← h1]
    have hsplit : List.range (k + 1 + d) = List.range k ++ k :: (List.range d).map fun i => k + 1 + i := by
      rw [List.range_add, List.range_succ]
      simp
    rw [hsplit, List.range_succ, List.flatMap_append, List.flatMap_append, List.flatMap_cons, List.flatMap_cons, List.flatMap_nil]
    have e1 : (List.range k).flatMap (paintedOn (l ++ [⟨k, top, bottom, evs⟩])) = (List.range k).flatMap (paintedOn l) := by
      refine List.flatMap_congr fun i hi => ?_
      rw [paintedOn_snoc, if_neg (by simp at hi; show k ≠ i; omega), List.append_nil]
    have e2 : ((List.range d).map fun i => k + 1 + i).flatMap (paintedOn (l ++ [⟨k, top, bottom, evs⟩])) = [] := by
      rw [List.flatMap_eq_nil_iff]
      intro i hi
      obtain ⟨j, -, rfl⟩ := List.mem_map.1 hi
      rw [paintedOn_none]
      intro r hr
      rcases List.mem_append.1 hr with hr | hr
      · have := hle r hr; omega
      · simp only [List.mem_singleton] at hr; subst hr; simp; omega
    rw [e1, e2, paintedOn_snoc, if_pos rfl]
    simp

/-! ### The theorem -/

/-- what a reader finds in a file with paragraphs: `pages` is what its pages show, in order; each paragraph is shown in pieces, `shown`, each of
them on a page -/
structure TextRead (R : PdfFile) (flate : Bytes → Bytes) (texts : List TextArgs) (pages : List (List Event)) (shown : List (List TextShown)) : Prop where
  /-- the pages show exactly the pieces, in their order -/
  read : ∃ N ids, (∀ depth, N ≤ depth → R.pages depth = some ids) ∧ List.Forall₂ (fun id evs => ∃ D, R.dict id = some D ∧
    ∀ inflate, (∀ x, inflate (flate x) = x) → R.pageEvents inflate D = some evs) ids pages
  pieces : ∀ i evs, pages[i]? = some evs → evs = (shown.flatten.filter fun r => r.page = i).flatMap TextShown.evs
  bound : ∀ r ∈ shown.flatten, r.page < pages.length
  /-- later pieces are not on earlier pages -/
  order : (shown.flatten.map TextShown.page).Pairwise (· ≤ ·)
  /-- the pieces of a paragraph have exactly its words -/
  words : List.Forall₂ (fun a rs => wordsOf (rs.flatMap fun r => eventToks none r.evs) = contentWordsOf a.cfg.content) texts shown

/-- a document whose pages show some pieces, written and read -/
theorem pages_written {E : PdfEnv} {s : PdfD} {texts : List TextArgs} {rss : List (List TextShown)} (h1 : PagesRead s.doc rss.flatten)
    (h2 : List.Forall₂ (fun a rs => wordsOf (rs.flatMap fun r => eventToks none r.evs) = contentWordsOf a.cfg.content) texts rss)
    {level : Int} {b : Base} (hb : s.doc.withTrees E.num level = .ok b) (hread : ∀ o ∈ b.content, readable o.value = true)
    (flate : Bytes → Bytes) (u1 u2 : Bytes) (hok : (b.output flate u1 u2).err = none) (hsmall : (b.output flate u1 u2).written.length < 10 ^ 10)
    (hu1 : 60 ∉ u1 ∧ 62 ∉ u1) (hu2 : 60 ∉ u2 ∧ 62 ∉ u2) :
    ∃ R N pages, openFile (b.output flate u1 u2).written = some R ∧ (∀ depth, N ≤ depth → R.pages depth = some (s.doc.pages.map Page.objId)) ∧
      (∀ pg ∈ s.doc.pages, PageShown E.num flate s.doc R pg) ∧ TextRead R flate texts pages rss := by
  obtain ⟨R, N, r1, r2, r3, -⟩ := document_read (E := E) h1.out hb hread flate u1 u2 hok hsmall hu1 hu2
  refine ⟨R, N, (List.range s.doc.pages.length).map (paintedOn rss.flatten), r1, r2, r3, ⟨⟨N, _, r2, ?_⟩, ?_, by simpa using h1.bound, h1.sorted, h2⟩⟩
  · rw [List.forall₂_iff_get]
    refine ⟨by simp, ?_⟩
    intro i hi1 hi2
    simp only [List.length_map] at hi1
    have hpg : s.doc.pages[i]? = some s.doc.pages[i] := List.getElem?_eq_getElem hi1
    obtain ⟨-, str, ops, gs, e1, e2, -, e3⟩ := h1.page i _ hpg
    obtain ⟨D, d1, -, d3, -⟩ := (r3 _ (List.getElem_mem hi1)).shown
    refine ⟨D, by simpa using d1, ?_⟩
    intro inflate hinf
    simp only [List.get_eq_getElem, List.getElem_map, List.getElem_range]
    rw [PdfFile.pageEvents, d3 inflate hinf, Option.bind_some, e1, execStream, e2.ops]
    simp only [e3, Option.map_some]
  · intro i evs hi
    rw [List.getElem?_map] at hi
    cases hj : (List.range s.doc.pages.length)[i]? with
    | none => rw [hj] at hi; cases hi
    | some j =>
      rw [hj] at hi
      obtain ⟨hlt, e⟩ := List.getElem?_eq_some_iff.1 hj
      rw [List.getElem_range] at e
      subst e
      simp only [Option.map_some, Option.some.injEq] at hi
      rw [← hi]
      rfl

/-- **C77.** Make a document with any sequence of calls of `add_page` and `text`, with paragraphs in the fonts of the standard and without lists.
If every value in it can be written, its file opens in a reader, whose pages show exactly one piece of text after the other, each paragraph in
pieces on pages in order; and the words of the pieces of a paragraph are exactly the words that were given, in their order. -/
theorem C77_words_partial {E : PdfEnv} {T : TextEnv} (hT : T.Ok) {refOf : Str → Str → Str} {k : Sheet} {fuel : Nat} {version : Str} {l : List WriteOp}
    {p p' : FProc} {s : PdfD} (hl : ∀ a ∈ writtenTexts l, Readable T.fmt refOf a.cfg) (h : writtenDoc E T k fuel version l p = .ok (p', s))
    {level : Int} {b : Base} (hb : s.doc.withTrees E.num level = .ok b) (hread : ∀ o ∈ b.content, readable o.value = true)
    (flate : Bytes → Bytes) (u1 u2 : Bytes) (hok : (b.output flate u1 u2).err = none) (hsmall : (b.output flate u1 u2).written.length < 10 ^ 10)
    (hu1 : 60 ∉ u1 ∧ 62 ∉ u1) (hu2 : 60 ∉ u2 ∧ 62 ∉ u2) :
    ∃ R pages shown, openFile (b.output flate u1 u2).written = some R ∧ TextRead R flate (writtenTexts l) pages shown := by
  unfold writtenDoc at h
  split at h
  · cases h
  · rename_i r hn
    obtain ⟨p0, s0⟩ := r
    obtain ⟨rss, -, h1, h2, -⟩ := writes_read hT l (new_read hn) hl h
    rw [List.nil_append] at h1
    obtain ⟨R, N, pages, r1, -, -, r2⟩ := pages_written h1 (h2.imp fun _ _ h => h.1) hb hread flate u1 u2 hok hsmall hu1 hu2
    exact ⟨R, pages, rss, r1, r2⟩

/-- All pages in order show exactly the characters of all paragraphs in order (blanks apart). -/
theorem textRead_chars {R : PdfFile} {flate : Bytes → Bytes} {texts : List TextArgs} {pages : List (List Event)} {shown : List (List TextShown)}
    (h : TextRead R flate texts pages shown) : pages.flatMap eventChars = texts.flatMap fun a => contentChars a.cfg.content := by
  have h1 : pages = (List.range pages.length).map (paintedOn shown.flatten) := by
    apply List.ext_getElem?
    intro i
    rw [List.getElem?_map]
    by_cases hi : i < pages.length
    · rw [List.getElem?_range hi, List.getElem?_eq_getElem hi]
      simp only [Option.map_some, Option.some.injEq]
      exact h.pieces i _ (List.getElem?_eq_getElem hi)
    · rw [List.getElem?_eq_none (by omega), List.getElem?_eq_none (by simpa using hi)]
      rfl
  have h2 := paintedOn_all _ h.order pages.length h.bound
  have flat : ∀ l : List (List Event), l.flatMap eventChars = eventChars l.flatten := by
    intro l
    induction l with
    | nil => rfl
    | cons a l ih => rw [List.flatMap_cons, ih, List.flatten_cons, eventChars_append]
  have h3 : pages.flatMap eventChars = eventChars (shown.flatten.flatMap TextShown.evs) := by
    rw [flat, ← h2]
    conv_lhs => rw [h1]
    rw [← List.flatMap_def]
  rw [h3]
  have hw := h.words
  clear h3 h2 h1 flat h
  induction hw with
  | nil => rfl
  | @cons a rs texts shown h1 _ ih =>
    rw [List.flatten_cons, List.flatMap_append, List.flatMap_cons, ← ih]
    have e : eventChars (rs.flatMap TextShown.evs) = contentChars a.cfg.content := by
      rw [← contentWords_chars, ← h1, wordsOf_flatten]
      clear h1
      induction rs with
      | nil => rfl
      | cons r rs ih =>
        rw [List.flatMap_cons, List.flatMap_cons, tokWords_append, eventToks_chars, ← ih]
        simp [eventChars]
    rw [← e]
    simp [eventChars]

/-- **C77.** All pages of the file in order show exactly the characters of all paragraphs in order, blanks apart. -/
theorem C77_characters_partial {E : PdfEnv} {T : TextEnv} (hT : T.Ok) {refOf : Str → Str → Str} {k : Sheet} {fuel : Nat} {version : Str} {l : List WriteOp}
    {p p' : FProc} {s : PdfD} (hl : ∀ a ∈ writtenTexts l, Readable T.fmt refOf a.cfg) (h : writtenDoc E T k fuel version l p = .ok (p', s))
    {level : Int} {b : Base} (hb : s.doc.withTrees E.num level = .ok b) (hread : ∀ o ∈ b.content, readable o.value = true)
    (flate inflate : Bytes → Bytes) (hinf : ∀ x, inflate (flate x) = x) (u1 u2 : Bytes) (hok : (b.output flate u1 u2).err = none)
    (hsmall : (b.output flate u1 u2).written.length < 10 ^ 10) (hu1 : 60 ∉ u1 ∧ 62 ∉ u1) (hu2 : 60 ∉ u2 ∧ 62 ∉ u2) :
    ∃ R N ids, openFile (b.output flate u1 u2).written = some R ∧ (∀ depth, N ≤ depth → R.pages depth = some ids) ∧
      (ids.mapM fun id => (R.dict id).bind (R.pageEvents inflate)).map (fun pages => pages.flatMap eventChars) =
        some ((writtenTexts l).flatMap fun a => contentChars a.cfg.content) := by
  obtain ⟨R, pages, shown, h1, h2⟩ := C77_words_partial hT hl h hb hread flate u1 u2 hok hsmall hu1 hu2
  obtain ⟨N, ids, h3, h4⟩ := h2.read
  refine ⟨R, N, ids, h1, h3, ?_⟩
  have e : (ids.mapM fun id => (R.dict id).bind (R.pageEvents inflate)) = some pages := by
    clear h3
    have := h4
    clear h2 h4
    induction this with
    | nil => rfl
    | cons a _ ih =>
      obtain ⟨D, d1, d2⟩ := a
      rw [List.mapM_cons, ih, d1, Option.bind_some, d2 inflate hinf]
      rfl
  rw [e, ← textRead_chars h2]
  rfl

/-! ### An example -/

def ex77E : PdfEnv := ⟨fun _ => none, fun x => .int x.num, fun _ => none, id⟩
def ex77T : TextEnv := ⟨sampleTFmt, sampleM, fun _ _ => none⟩
def ex77Sheet : Sheet := ⟨50, 40, 5, 5, 5, 5⟩
def ex77Text (s : Str) : TextArgs := ⟨exMarkPar s c!"und er" 0 c!"l" none, none⟩

/-- a page and two paragraphs, the first of which goes on on further pages -/
def ex77Ops : List WriteOp := [.page ex77Sheet, .text (ex77Text c!"a(b) bcd e\r\nfgh ijk lm "), .text (ex77Text c!"no\\p ")]

def ex77 : Option (PdfD × Base) :=
  match writtenDoc ex77E ex77T ex77Sheet 10 c!"1.5" ex77Ops ⟨[], []⟩ with
  | .error _ => none
  | .ok r => match r.2.doc.withTrees ex77E.num 1 with
    | .error _ => none
    | .ok b => some (r.2, b)

def ex77File : Option PdfFile := ex77.bind fun r => openFile (r.2.output id b!"00" b!"11").written

/-- The hypotheses of the theorem are met by it, ... -/
example : (ex77.map fun r => r.2.content.all (fun o => readable o.value) && ((r.2.output id b!"00" b!"11").err = none) &&
      decide ((r.2.output id b!"00" b!"11").written.length < 10 ^ 10)) = some true := by decide +kernel

example : ∀ a ∈ writtenTexts ex77Ops, Readable ex77T.fmt sampleRef a.cfg := by
  have key : ∀ s, Readable sampleTFmt sampleRef (ex77Text s).cfg := by
    intro s
    have hx : ∀ x ∈ contentLooks (ex77Text s).cfg.content, x = (samplePart [] none).look ∨ x = ⟨sampleSt, true, ⟨some [1], false⟩, none⟩ := by
      intro x hx
      simpa [ex77Text, exMarkPar, contentLooks] using hx
    have hw : ∀ b, Writable (⟨some [1], b⟩ : PDFColor Rat) := fun b => ⟨[1], rfl, Or.inl rfl⟩
    refine ⟨⟨?_, (by intro lc h; cases h), (by intro lc h; cases h)⟩, ?_, rfl⟩
    · intro x h
      rcases hx x h with rfl | rfl <;> exact sampleSt_ok
    · intro x h
      rcases hx x h with rfl | rfl
      · exact ⟨⟨fun h => by simp [samplePart] at h, fun h => by simp [samplePart] at h⟩, rfl⟩
      · exact ⟨⟨fun _ => ⟨hw _, rfl⟩, fun _ => hw _⟩, rfl⟩
  intro a ha
  simp only [writtenTexts, ex77Ops, List.filterMap_cons, List.filterMap_nil, List.mem_cons, List.not_mem_nil, or_false] at ha
  rcases ha with rfl | rfl <;> exact key _

/-- ... and the file read, by computation. -/
example : (ex77File.bind fun R => (R.pages 3).map fun ids => ids.map fun n => (R.dict n).bind fun D => (R.pageEvents id D).map eventWords) =
    some [some [c!"a(b)", c!"bcd"], some [c!"e", c!"fgh", c!"ijk"], some [c!"lm", c!"und"], some [c!"er", c!"no\\p"], some [c!"und", c!"er"]] := by decide +kernel

end Verif
