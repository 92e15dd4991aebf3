import Verif.Props.C71_Styles
/-! C72: an element can be used again. C73: the settings of a document hold for its paragraphs. -/
namespace Verif
open Spec

variable {V : Type}

/-- the same items -/
def Spec.SameDict (a b : List (Str × V)) : Prop := ∀ k, dget k a = dget k b

/-- C72: a text that is drawn again at the same place of a content box (as when columns are balanced, or in a group) looks the same -/
theorem C72_again_partial {X : StyleCtx V} (hX : FormatsDict X) {dot : Str} {st : StyleArg V} (hst : ArgDict st) {inh : List (Str × V)}
    (hinh : IsDict inh) {s f : List (Str × V)} {st' : StyleArg V} (h : drawText X inh dot st = .ok ((s, f), st')) :
    ∃ s2 f2 st2, drawText X inh dot st' = .ok ((s2, f2), st2) ∧ SameDict s2 s ∧ SameDict f2 f := by
  simp only [drawText] at h
  obtain ⟨r, h1, e⟩ := bind_ok h
  obtain ⟨f0, h2, e⟩ := bind_ok e
  cases e
  have k := elementStyles_keeps hX hst (keeps_one hinh) h1
  have hdot : ∃ d, dotStyle X (some dot) = .ok d := by
    simp only [elementStyles] at h1
    obtain ⟨d, h3, -⟩ := bind_ok h1
    exact ⟨d, h3⟩
  obtain ⟨r2, h3⟩ := elementStyles_fine (st := .dict r.1) hdot trivial inh
  obtain ⟨f2, h4⟩ := textStyle_fine hdot r2.1
  refine ⟨r2.1, f2, .dict r2.1, ?_, ?_, ?_⟩
  · simp only [drawText, h3]
    show (textStyle X (some dot) r2.1 >>= _) = _
    rw [h4]
    rfl
  all_goals
    have k2 : KeepsKey r2.1 [given X st, written X dot, inh] := by
      refine (elementStyles_keeps (st := .dict r.1) hX k.dict (keeps_one hinh) h3).same fun q => ?_
      show says (r.1 :: written X dot :: [inh]) q = _
      have := k.follows q
      rw [says_cons, this]
      simp only [says_cons]
      cases dget q (given X st) <;> cases dget q (written X dot) <;> cases dget q inh <;> rfl
  · exact fun q => (k2.follows q).trans (k.follows q).symm
  · exact fun q => (textStyle_follows k2 (dot_in X dot _ _) h4 q).trans (textStyle_follows k (dot_in X dot _ _) h2 q).symm

/-- C72: a cell can be used again anywhere, because the table works on a copy -/
theorem C72_cell_partial {X : StyleCtx V} {dot : Str} {st st' : StyleArg V} {table : List (Str × V)} {r : List (Str × V) × List (Str × V)}
    (h : drawCellText X table dot st = .ok (r, st')) : st' = st := by
  simp only [drawCellText] at h
  obtain ⟨r, h1, e⟩ := bind_ok h
  obtain ⟨f0, h2, e⟩ := bind_ok e
  cases e
  rfl

example : (drawText exCtx [(c!"s", .num 11)] c!"b" .none).toOption.map (fun r => dget c!"s" r.1.2) = some (some (.num 11)) := by decide +kernel

/-- C72 does not hold: a text drawn with size 11 and then drawn again in a content box with size 20 has size 11 again, but the same text that was not
drawn before has size 20. Running sections are drawn again on every page in this way (pdf.py:278-279). -/
theorem C72_again_false : ∃ (inh1 inh2 : List (Str × ExVal)) (dot : Str) (st : StyleArg ExVal) (r1 r2 r3 : (List (Str × ExVal) × List (Str × ExVal)) × StyleArg ExVal),
    drawText exCtx inh1 dot st = .ok r1 ∧ drawText exCtx inh2 dot r1.2 = .ok r2 ∧ drawText exCtx inh2 dot st = .ok r3 ∧
    dget c!"s" r2.1.2 = some (.num 11) ∧ dget c!"s" r3.1.2 = some (.num 20) :=
  ⟨[(c!"s", .num 11)], [(c!"s", .num 20)], [], .none, _, _, _, rfl, rfl, rfl, rfl, rfl⟩

/-- the same for `PDF.text` and a dict -/
theorem C72_text_false : ∃ (D1 D2 : PdfDefaults ExVal) (dot : Option Str) (st : StyleArg ExVal) (r1 r2 r3 : List (Str × ExVal) × StyleArg ExVal),
    drawPdfText exCtx D1 dot st = .ok r1 ∧ drawPdfText exCtx D2 dot r1.2 = .ok r2 ∧ drawPdfText exCtx D2 dot st = .ok r3 ∧
    dget c!"s" r2.1 = some (.num 11) ∧ dget c!"s" r3.1 = some (.num 20) :=
  ⟨exDefaults, { exDefaults with size := .num 20 }, some [], .none, _, _, _, rfl, rfl, rfl, rfl, rfl⟩

mutual
/-- nothing in a tree says something about a key -/
def Spec.Silent (X : StyleCtx V) (k : Str) : STree V → Prop
  | .text dot st => says [given X st, written X dot] k = none
  | .image st => says [given X st] k = none
  | .table st l => says [given X st] k = none ∧ Spec.AllSilent X k l
  | .box st l => says [given X st] k = none ∧ Spec.AllSilent X k l
  | .group st l => says [given X st] k = none ∧ Spec.AllSilent X k l

def Spec.AllSilent (X : StyleCtx V) (k : Str) : List (STree V) → Prop
  | [] => True
  | t :: l => Spec.Silent X k t ∧ Spec.AllSilent X k l
end

/-- a key that tables and boxes leave alone -/
structure PlainKey (k : Str) : Prop where
  cell : k ∉ cellKeys
  border : k ∉ borderKeys
  box : k ≠ c!"margin_bottom"

theorem says_one {d : List (Str × V)} {k : Str} : says [d] k = dget k d := by rw [says_cons, says_nil, Option.or_none]

theorem PlainKey.tableLayer {k : Str} (h : PlainKey k) (X : StyleCtx V) : says [tableLayer X] k = none := by
  have h1 : ¬ c!"cell_fill" = k := by rintro rfl; exact h.cell (by decide)
  have h2 : ¬ c!"cell_margin" = k := by rintro rfl; exact h.cell (by decide)
  rw [says_one]
  simp [Spec.tableLayer, dget, h1, h2]

theorem PlainKey.boxLayer {k : Str} (h : PlainKey k) (X : StyleCtx V) : says [boxLayer X] k = none := by
  have h1 : ¬ c!"margin_bottom" = k := fun e => h.box e.symm
  rw [says_one]
  simp [Spec.boxLayer, dget, h1]

/-- what the layers of the texts say about a key is what is said around them -/
def TextsSay (k : Str) (v : Option V) (l : List (SWant V)) : Prop := ∀ P F, .text P F ∈ l → says P k = v

theorem TextsSay.append {k : Str} {v : Option V} {l m : List (SWant V)} (h : TextsSay k v l) (h' : TextsSay k v m) : TextsSay k v (l ++ m) :=
  fun P F hm => (List.mem_append.1 hm).elim (h P F) (h' P F)

theorem textsSay_nil (k : Str) (v : Option V) : TextsSay k v [] := fun _ _ h => nomatch h

theorem TextsSay.skip {k : Str} {v : Option V} {l : List (SWant V)} (h : TextsSay k v l) {w : SWant V} (hw : ∀ P F, w ≠ .text P F) : TextsSay k v (w :: l) :=
  fun P F hm => (List.mem_cons.1 hm).elim (fun e => absurd e.symm (hw P F)) (h P F)

mutual
theorem wantElem_silent {X : StyleCtx V} {k : Str} (hk : PlainKey k) : ∀ (t : STree V) (L : List (List (Str × V))), Silent X k t →
    TextsSay k (says L k) (wantElem X L t)
  | .text dot st, L, h => by
    intro P F hm
    simp only [wantElem, List.mem_singleton] at hm
    cases hm
    have h : says [given X st, written X dot] k = none := h
    have : given X st :: written X dot :: L = [given X st, written X dot] ++ L := rfl
    rw [this, says_append, h]
    rfl
  | .image st, L, h => by
    intro P F hm
    simp [wantElem] at hm
  | .table st cells, L, h => by
    simp only [wantElem]
    refine TextsSay.skip ?_ (fun P F e => nomatch e)
    have := wantCells_silent hk cells (hide borderKeys (given X st :: L) ++ [tableLayer X]) h.2
    rwa [says_append, hk.tableLayer, Option.or_none, says_hide, if_neg hk.border, says_cons, ← says_one, h.1, Option.none_or] at this
  | .box st elems, L, h => by
    simp only [wantElem]
    have := wantElems_silent hk elems (given X st :: L ++ [boxLayer X]) h.2
    rwa [says_append, hk.boxLayer, Option.or_none, says_cons, ← says_one, h.1, Option.none_or] at this
  | .group st elems, L, h => by
    simp only [wantElem]
    have := wantElems_silent hk elems (given X st :: L) h.2
    rwa [says_cons, ← says_one, h.1, Option.none_or] at this

theorem wantElems_silent {X : StyleCtx V} {k : Str} (hk : PlainKey k) : ∀ (l : List (STree V)) (L : List (List (Str × V))), AllSilent X k l →
    TextsSay k (says L k) (wantElems X L l)
  | [], L, h => by
    simp only [wantElems]
    exact textsSay_nil _ _
  | t :: l, L, h => by
    simp only [wantElems]
    exact (wantElem_silent hk t L h.1).append (wantElems_silent hk l L h.2)

theorem wantCell_silent {X : StyleCtx V} {k : Str} (hk : PlainKey k) : ∀ (t : STree V) (L : List (List (Str × V))), Silent X k t →
    TextsSay k (says L k) (wantCell X L t)
  | .text dot st, L, h => by
    simp only [wantCell]
    refine TextsSay.skip ?_ (fun P F e => nomatch e)
    intro P F hm
    rw [List.mem_singleton] at hm
    cases hm
    have h : says [given X st, written X dot] k = none := h
    have : given X st :: written X dot :: L = [given X st, written X dot] ++ L := rfl
    rw [says_hide, if_neg hk.cell, this, says_append, h]
    rfl
  | .image st, L, h => by
    intro P F hm
    simp [wantCell] at hm
  | .table st cells, L, h => by
    simp only [wantCell]
    refine TextsSay.skip (w := .cell _) (TextsSay.skip (w := .table _) ?_ (fun P F e => nomatch e)) (fun P F e => nomatch e)
    have := wantCells_silent hk cells (hide borderKeys (hide cellKeys (given X st :: L)) ++ [tableLayer X]) h.2
    rwa [says_append, hk.tableLayer, Option.or_none, says_hide, if_neg hk.border, says_hide, if_neg hk.cell, says_cons, ← says_one, h.1,
      Option.none_or] at this
  | .box st elems, L, h => by
    simp only [wantCell]
    refine TextsSay.skip ?_ (fun P F e => nomatch e)
    have := wantElems_silent hk elems (hide cellKeys (given X st :: L) ++ [boxLayer X]) h.2
    rwa [says_append, hk.boxLayer, Option.or_none, says_hide, if_neg hk.cell, says_cons, ← says_one, h.1, Option.none_or] at this
  | .group st elems, L, h => by
    intro P F hm
    simp [wantCell] at hm

theorem wantCells_silent {X : StyleCtx V} {k : Str} (hk : PlainKey k) : ∀ (l : List (STree V)) (L : List (List (Str × V))), AllSilent X k l →
    TextsSay k (says L k) (wantCells X L l)
  | [], L, h => by
    simp only [wantCells]
    exact textsSay_nil _ _
  | t :: l, L, h => by
    simp only [wantCells]
    exact (wantCell_silent hk t L h.1).append (wantCells_silent hk l L h.2)
end

theorem MeetAll.text {X : StyleCtx V} {es : List (SEvent V)} {ws : List (SWant V)} (h : MeetAll X es ws) {s f : List (Str × V)}
    (hm : .text s f ∈ es) : ∃ P F, .text P F ∈ ws ∧ Follows s P ∧ Follows f F := by
  induction h with
  | nil => cases hm
  | @cons e w es ws h1 _ ih =>
    rcases List.mem_cons.1 hm with rfl | hm
    · cases w with
      | text P F => exact ⟨P, F, by simp, h1.1, h1.2⟩
      | image L => exact h1.elim
      | table L => exact h1.elim
      | cell L => exact h1.elim
    · obtain ⟨P, F, h2, h3⟩ := ih hm
      exact ⟨P, F, List.mem_cons_of_mem _ h2, h3⟩

/-- a style that has an attribute of a document -/
theorem content_attr {X : StyleCtx V} (hX : FormatsDict X) (D : PdfDefaults V) {st : StyleArg V} (hst : ArgDict st) {elems : List (STree V)}
    (ht : TreesDicts elems) {es : List (SEvent V)} (e : walkContent X D st elems = .ok es) {k : Str} (hk : PlainKey k)
    (hs : Silent X k (.box st elems)) {s f : List (Str × V)} (hm : .text s f ∈ es) : dget k s = dget k (defaultContentStyle D) := by
  obtain ⟨P, F, h1, h2, -⟩ := (C71_content_partial hX D hst ht e).text hm
  rw [h2 k, wantElems_silent hk elems _ hs.2 P F h1, says_cons, ← says_one, hs.1, Option.none_or]
  show says ([defaultContentStyle D] ++ [boxLayer X]) k = _
  rw [says_append, hk.boxLayer, Option.or_none, says_one]

theorem table_attr {X : StyleCtx V} (hX : FormatsDict X) (D : PdfDefaults V) {st : StyleArg V} (hst : ArgDict st) {elems : List (STree V)}
    (ht : TreesDicts elems) {es : List (SEvent V)} (e : walkTable X D st elems = .ok es) {k : Str} (hk : PlainKey k)
    (hs : Silent X k (.table st elems)) {s f : List (Str × V)} (hm : .text s f ∈ es) : dget k s = dget k (defaultContentStyle D) := by
  obtain ⟨P, F, h1, h2, -⟩ := (C71_table_partial hX D hst ht e).text hm
  have h1 := (List.mem_cons.1 h1).resolve_left (by rintro ⟨⟩)
  rw [h2 k, wantCells_silent hk elems _ hs.2 P F h1, says_append, hk.tableLayer, Option.or_none, says_hide, if_neg hk.border, says_cons,
    ← says_one, hs.1, Option.none_or, says_one]

/-- nothing is said about how the lines of paragraphs are laid out -/
def Spec.NoLayout (X : StyleCtx V) (t : STree V) : Prop :=
  Silent X c!"text_align" t ∧ Silent X c!"line_height" t ∧ Silent X c!"indent" t

/-- C73: the paragraphs of content boxes and tables have the alignment, the line height and the indent of the document if nothing else is said -/
theorem C73_boxes_partial {X : StyleCtx V} (hX : FormatsDict X) (D : PdfDefaults V) {st : StyleArg V} (hst : ArgDict st) {elems : List (STree V)}
    (ht : TreesDicts elems) {es : List (SEvent V)}
    (e : (walkContent X D st elems = .ok es ∧ NoLayout X (.box st elems)) ∨ (walkTable X D st elems = .ok es ∧ NoLayout X (.table st elems)))
    {s f : List (Str × V)} (hm : .text s f ∈ es) : parProps X s = ⟨D.align, D.lineHeight, D.indent⟩ := by
  have k1 : PlainKey c!"text_align" := ⟨by decide, by decide, by decide⟩
  have k2 : PlainKey c!"line_height" := ⟨by decide, by decide, by decide⟩
  have k3 : PlainKey c!"indent" := ⟨by decide, by decide, by decide⟩
  rcases e with ⟨e, n1, n2, n3⟩ | ⟨e, n1, n2, n3⟩
  · simp only [parProps, content_attr hX D hst ht e k1 n1 hm, content_attr hX D hst ht e k2 n2 hm, content_attr hX D hst ht e k3 n3 hm]
    rfl
  · simp only [parProps, table_attr hX D hst ht e k1 n1 hm, table_attr hX D hst ht e k2 n2 hm, table_attr hX D hst ht e k3 n3 hm]
    rfl

/-- C73: `text` has the alignment of the document, and what it is given -/
theorem C73_text_partial (X : StyleCtx V) (D : PdfDefaults V) (align lineHeight indent : Option V) :
    (align = none → (pdfTextProps X D align lineHeight indent).align = D.align) ∧
    (∀ a, align = some a → (pdfTextProps X D align lineHeight indent).align = a) ∧
    (∀ a, lineHeight = some a → (pdfTextProps X D align lineHeight indent).lineHeight = a) ∧
    (∀ a, indent = some a → (pdfTextProps X D align lineHeight indent).indent = a) := by
  refine ⟨?_, ?_, ?_, ?_⟩
  · rintro rfl; rfl
  · rintro a rfl; rfl
  · rintro a rfl; rfl
  · rintro a rfl; rfl

/-- C73 does not hold of `text`: in a document with line height 2 and indent 30 its paragraphs have line height 1.1 and indent 0 -/
theorem C73_text_false : ∃ D : PdfDefaults ExVal, D.lineHeight = .num 2 ∧ D.indent = .num 30 ∧
    (pdfTextProps exCtx D none none none).lineHeight = .num (11/10) ∧ (pdfTextProps exCtx D none none none).indent = .num 0 :=
  ⟨{ exDefaults with lineHeight := .num 2, indent := .num 30 }, rfl, rfl, rfl, rfl⟩

example : (walkContent exCtx { exDefaults with lineHeight := .num 2 } .none [.text c!"b" .none, .table .none [.text [] .none]]).toOption.map
    (fun es => es.filterMap fun | .text s _ => some (parProps exCtx s).lineHeight | _ => none) = some [.num 2, .num 2] := by decide +kernel

example : NoLayout exCtx (.box .none [.text c!"b" .none, .table .none [.text [] .none]]) := by
  refine ⟨⟨rfl, ?_, ⟨rfl, ?_, trivial⟩, trivial⟩, ⟨rfl, ?_, ⟨rfl, ?_, trivial⟩, trivial⟩, ⟨rfl, ?_, ⟨rfl, ?_, trivial⟩, trivial⟩⟩ <;> rfl

end Verif
