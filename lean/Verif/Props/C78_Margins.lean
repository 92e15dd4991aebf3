import Verif.Props.C77_FileText
/-! C78: where the text given to `PDF.text` is in the file. -/
namespace Verif
open Spec

/-! ### Pieces below each other -/

theorem stacked_inside : ∀ (l : List TextShown) {t b : Rat}, stacked t l b → (∀ r ∈ l, r.bottom ≤ r.top) →
    b ≤ t ∧ (∀ r ∈ l, r.top ≤ t ∧ b ≤ r.bottom) ∧ l.Pairwise fun r r' => r'.top ≤ r.bottom := by
  intro l
  induction l with
  | nil => intro t b h _; exact ⟨le_of_eq (Eq.symm h), by simp, .nil⟩
  | cons a l ih =>
    intro t b h hd
    obtain ⟨h1, h2⟩ := h
    obtain ⟨i1, i2, i3⟩ := ih h2 fun r hr => hd r (by simp [hr])
    have ha := hd a (by simp)
    refine ⟨by linarith, ?_, List.pairwise_cons.2 ⟨fun r hr => (i2 r hr).1, i3⟩⟩
    intro r hr
    rcases List.mem_cons.1 hr with rfl | hr
    · exact ⟨le_of_eq h1, i1⟩
    · have := i2 r hr
      exact ⟨by linarith, this.2⟩

theorem pairwise_filter {α : Type} {P : α → α → Prop} {f : α → Nat} (l : List α) (h : ∀ i, (l.filter fun r => f r = i).Pairwise P) :
    l.Pairwise fun r r' => f r = f r' → P r r' := by
  induction l with
  | nil => exact .nil
  | cons a l ih =>
    refine List.pairwise_cons.2 ⟨?_, ih fun i => ?_⟩
    · intro r hr hf
      have := h (f a)
      rw [List.filter_cons, if_pos (by simp), List.pairwise_cons] at this
      exact this.1 r (List.mem_filter.2 ⟨hr, by simp [hf]⟩)
    · have := h i
      rw [List.filter_cons] at this
      split at this
      · exact (List.pairwise_cons.1 this).2
      · exact this

/-! ### The theorem -/

/-- the place of a piece of a paragraph on a page with the size and margins `k`: the strings are shown between its top and its bottom, and at the
left margin if the paragraph is not indented, centred or right aligned; `ε` is the error of one number, and every move adds its own -/
structure PlacedOn (ε : Rat) (k : Sheet) (cfg : TCfg) (r : TextShown) : Prop where
  down : r.bottom ≤ r.top
  strings : ∀ gs tm mv s, Event.text gs tm mv s ∈ r.evs → ∃ x y, (Event.text gs tm mv s).origin = some (x, y) ∧
    r.bottom - (mv.length + 1) * ε ≤ y ∧ y ≤ r.top + (mv.length + 1) * ε ∧
    (cfg.align ≠ c!"r" → cfg.align ≠ c!"c" → cfg.indent = 0 → |x - k.left| ≤ (mv.length + 1) * ε)

/-- where a reader finds the pieces of paragraphs; `sheets` are the sizes and margins of the pages -/
structure TextPlaced (num : Rat → Obj) (ε : Rat) (R : PdfFile) (sheets : List Sheet) (texts : List TextArgs) (shown : List (List TextShown)) : Prop where
  /-- the sizes are those of the pages in the file -/
  boxes : ∃ N ids, (∀ depth, N ≤ depth → R.pages depth = some ids) ∧ List.Forall₂ (fun id k => ∃ D w h, R.dict id = some D ∧
    meaning (num k.w) = some w ∧ meaning (num k.h) = some h ∧ Spec.lookup b!"MediaBox" D = some (.arr [.int 0, .int 0, w, h])) ids sheets
  /-- the pieces of a page begin at its upper margin, each begins where the one before ends, and the last one ends above the lower margin -/
  column : ∀ (i : Nat) k, sheets[i]? = some k → ∃ b, stacked (k.h - k.top) (shown.flatten.filter fun r => r.page = i) b ∧ (k.bottom ≤ k.h - k.top → k.bottom ≤ b)
  placed : List.Forall₂ (fun a rs => ∀ r ∈ rs, ∃ k, sheets[r.page]? = some k ∧ PlacedOn ε k a.cfg r) texts shown

/-- **C78.** Make a document with any sequence of calls of `add_page` and `text`, as in C77. Every page of its file has the size that was asked for.
The pieces of the paragraphs of a page are one below the other, without gaps and in the order of the calls, from the upper margin to the lower margin
(or to a place above it). Each string of a paragraph is shown in the place of its piece, and the lines of a paragraph begin at the left margin, if it is not
centred, right aligned or indented. All this up to the rounding of the numbers in the file. -/
theorem C78_places_partial {E : PdfEnv} {T : TextEnv} (hT : T.Ok) {ε : Rat} (hd : T.fmt.Signed ε) {refOf : Str → Str → Str} {k : Sheet} {fuel : Nat}
    {version : Str} {l : List WriteOp} {p p' : FProc} {s : PdfD} (hl : ∀ a ∈ writtenTexts l, Readable T.fmt refOf a.cfg ∧ 0 ≤ a.cfg.lineHeight)
    (h : writtenDoc E T k fuel version l p = .ok (p', s))
    {level : Int} {b : Base} (hb : s.doc.withTrees E.num level = .ok b) (hread : ∀ o ∈ b.content, readable o.value = true)
    (flate : Bytes → Bytes) (u1 u2 : Bytes) (hok : (b.output flate u1 u2).err = none) (hsmall : (b.output flate u1 u2).written.length < 10 ^ 10)
    (hu1 : 60 ∉ u1 ∧ 62 ∉ u1) (hu2 : 60 ∉ u2 ∧ 62 ∉ u2) :
    ∃ R pages shown sheets, openFile (b.output flate u1 u2).written = some R ∧ TextRead R flate (writtenTexts l) pages shown ∧
      (∀ q ∈ sheets, q = k ∨ WriteOp.page q ∈ l) ∧ sheets.length = pages.length ∧ TextPlaced E.num ε R sheets (writtenTexts l) shown := by
  unfold writtenDoc at h
  split at h
  · cases h
  · rename_i r hn
    obtain ⟨p0, s0⟩ := r
    obtain ⟨rss, more, h1, h2, h3, h4, -⟩ := writes_read hT l (new_read hn) (fun a ha => (hl a ha).1) h
    rw [List.nil_append] at h1
    have h0 := new_pages hn
    simp only [h0, List.map_nil, List.nil_append] at h3
    obtain ⟨R, N, pages, r1, r2, r3, r4⟩ := pages_written h1 (h2.imp fun _ _ h => h.1) hb hread flate u1 u2 hok hsmall hu1 hu2
    have hlen : s.doc.pages.length = pages.length := by
      obtain ⟨N', ids, a1, a2⟩ := r4.read
      have e := a1 (max N N') (le_max_right _ _)
      rw [r2 _ (le_max_left _ _)] at e
      cases e
      simpa using a2.length_eq
    refine ⟨R, pages, rss, s.doc.pages.map Page.sheet, r1, r4, ?_, by simpa using hlen, ⟨N, _, r2, ?_⟩, ?_, ?_⟩
    · rw [h3]; exact h4
    · rw [List.forall₂_map_left_iff, List.forall₂_map_right_iff, List.forall₂_same]
      intro pg hpg
      obtain ⟨D, d1, ⟨w, h, m1, m2, m3⟩, -⟩ := (r3 pg hpg).shown
      exact ⟨D, w, h, d1, m1, m2, m3⟩
    · intro i q hi
      rw [List.getElem?_map] at hi
      cases hpg : s.doc.pages[i]? with
      | none => rw [hpg] at hi; cases hi
      | some pg =>
        rw [hpg] at hi
        cases hi
        have := h1.stack i pg hpg
        exact ⟨pg.yUp, this.pieces, this.low⟩
    · have hall : ∀ {l : List TextArgs} {rss : List (List TextShown)}, List.Forall₂ (fun a rs => wordsOf (rs.flatMap fun r => eventToks none r.evs) = contentWordsOf a.cfg.content ∧
        ∀ r ∈ rs, OnSheet T a.cfg (s.doc.pages.map Page.sheet) r) l rss → (∀ a ∈ l, 0 ≤ a.cfg.lineHeight) →
        List.Forall₂ (fun a rs => ∀ r ∈ rs, ∃ k, (s.doc.pages.map Page.sheet)[r.page]? = some k ∧ PlacedOn ε k a.cfg r) l rss := by
        intro l rss h
        induction h with
        | nil => intro _; exact .nil
        | @cons a rs l rss h _ ih =>
          intro hh
          refine .cons ?_ (ih fun a ha => hh a (by simp [ha]))
          intro r hr
          obtain ⟨k, k1, k2⟩ := h.2 r hr
          obtain ⟨g1, g2⟩ := k2 ε hd (hh a (by simp))
          refine ⟨k, k1, by linarith, ?_⟩
          intro gs tm mv str he
          obtain ⟨x, y, o1, o2, o3, o4, -⟩ := g2 gs tm mv str he
          refine ⟨x, y, o1, by linarith, o3, ?_⟩
          intro ar ac hi
          exact o4 (by simp [TCfg.moved, ar, ac]) hi
      exact hall (h2.imp fun _ _ h => ⟨h.1, h.2.1⟩) fun a ha => (hl a ha).2

/-- No string is shown in the margins above and below, if they leave room at all: all baselines are between them. -/
theorem C78_between {num : Rat → Obj} {flate : Bytes → Bytes} {ε : Rat} {R : PdfFile} {pages : List (List Event)} {sheets : List Sheet} {texts : List TextArgs}
    {shown : List (List TextShown)} (hr : TextRead R flate texts pages shown) (hp : TextPlaced num ε R sheets texts shown) {i : Nat} {evs : List Event} {k : Sheet}
    (he : pages[i]? = some evs) (hk : sheets[i]? = some k) (hroom : k.bottom ≤ k.h - k.top) :
    ∀ gs tm mv s, Event.text gs tm mv s ∈ evs → ∃ x y, (Event.text gs tm mv s).origin = some (x, y) ∧
      k.bottom - (mv.length + 1) * ε ≤ y ∧ y ≤ k.h - k.top + (mv.length + 1) * ε := by
  intro gs tm mv s hs
  rw [hr.pieces i evs he] at hs
  obtain ⟨r, hr1, hr2⟩ := List.mem_flatMap.1 hs
  obtain ⟨b, c1, c2⟩ := hp.column i k hk
  have hall : ∀ r ∈ shown.flatten, ∃ k a, sheets[r.page]? = some k ∧ PlacedOn ε k a r := by
    have := hp.placed
    intro r hr
    obtain ⟨rs, h1, h2⟩ := List.mem_flatten.1 hr
    obtain ⟨a, -, ha⟩ := forall2_right_mem this rs h1
    obtain ⟨k, k1, k2⟩ := ha r h2
    exact ⟨k, _, k1, k2⟩
  obtain ⟨-, s2, -⟩ := stacked_inside _ c1 fun r hr => by
    obtain ⟨k, a, -, h⟩ := hall r (List.mem_filter.1 hr).1
    exact h.down
  obtain ⟨k', a, -, h⟩ := hall r (List.mem_filter.1 hr1).1
  obtain ⟨x, y, o1, o2, o3, -⟩ := h.strings gs tm mv s hr2
  have := s2 r hr1
  have := c2 hroom
  exact ⟨x, y, o1, by linarith, by linarith⟩

/-- A piece is not above the end of an earlier piece of its page: what is written later is further down or on a later page. -/
theorem C78_below {num : Rat → Obj} {flate : Bytes → Bytes} {ε : Rat} {R : PdfFile} {pages : List (List Event)} {sheets : List Sheet} {texts : List TextArgs}
    {shown : List (List TextShown)} (hr : TextRead R flate texts pages shown) (hp : TextPlaced num ε R sheets texts shown) :
    shown.flatten.Pairwise fun r r' => r.page < r'.page ∨ r.page = r'.page ∧ r'.top ≤ r.bottom := by
  have hdown : ∀ r ∈ shown.flatten, r.bottom ≤ r.top ∧ ∃ k, sheets[r.page]? = some k := by
    intro r hr
    obtain ⟨rs, h1, h2⟩ := List.mem_flatten.1 hr
    obtain ⟨a, -, ha⟩ := forall2_right_mem hp.placed rs h1
    obtain ⟨k, k1, k2⟩ := ha r h2
    exact ⟨k2.down, k, k1⟩
  have h1 : shown.flatten.Pairwise fun r r' => r.page = r'.page → r'.top ≤ r.bottom := by
    refine pairwise_filter (P := fun r r' => r'.top ≤ r.bottom) (f := TextShown.page) _ fun i => ?_
    cases hk : sheets[i]? with
    | some k =>
      obtain ⟨b, c1, -⟩ := hp.column i k hk
      exact (stacked_inside _ c1 fun r hr => (hdown r (List.mem_filter.1 hr).1).1).2.2
    | none =>
      rw [List.filter_eq_nil_iff.2 ?_]
      · exact .nil
      · intro r hr hi
        obtain ⟨-, k, hk'⟩ := hdown r hr
        simp only [decide_eq_true_eq] at hi
        rw [hi, hk] at hk'
        cases hk'
  have h2 := hr.order
  rw [List.pairwise_map] at h2
  refine (h1.and h2).imp ?_
  rintro r r' ⟨a, b⟩
  rcases Nat.lt_or_eq_of_le b with hlt | heq
  · exact Or.inl hlt
  · exact Or.inr ⟨heq, a heq⟩

/-! ### An example -/

/-- the strings shown on the pages of a file, and where -/
def shownPlaces (R : PdfFile) : List (List (Bytes × Rat × Rat)) :=
  ((R.pages 3).getD []).map fun n => (((R.dict n).bind (R.pageEvents id)).getD []).filterMap fun
    | .text gs tm mv s => (Event.text gs tm mv s).origin.map fun o => (s, o)
    | _ => none

/-- The document of C77: its pages are 50 wide and 40 high with margins of 5. All text is at the left margin, and between 5 and 35; the second paragraph
begins on the fourth page, 11 below the end of the first one, which is the height of its first line. -/
example : ex77File.map shownPlaces = some [[(b!"a(b)", 5, 24), (b!"bcd", 5, 14)], [(b!"e\nfgh", 5, 24), (b!"ijk", 5, 14)],
    [(b!"lm", 5, 24), (b!"und", 5, 14)], [(b!"er", 5, 24), (b!"no\\p", 5, 13)], [(b!"und", 5, 24), (b!"er", 5, 14)]] := by decide +kernel

/-- The numbers of the example are written as C78 needs them. -/
example : ex77T.fmt.Signed 1 := sampleTFmt_signed
example : ∀ a ∈ writtenTexts ex77Ops, 0 ≤ a.cfg.lineHeight := by decide +kernel

/-- two pieces, one below the other -/
example : stacked 35 [⟨0, 35, 14, []⟩, ⟨0, 14, 5, []⟩] 5 := ⟨rfl, rfl, rfl⟩

end Verif
