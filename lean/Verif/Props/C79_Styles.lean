import Verif.Props.C77_FileText
/-! C79: the characters in the file have the font, size, colour and rise that were given. -/
namespace Verif
open Spec

theorem eventGlyphs_congr {f g : Bytes → Option Bytes} : ∀ (l : List Event), (∀ gs tm mv b, Event.text gs tm mv b ∈ l → f gs.font.1 = g gs.font.1) →
    eventGlyphs f l = eventGlyphs g l := by
  intro l h
  unfold eventGlyphs
  refine List.flatMap_congr fun e he => ?_
  cases e with
  | text gs tm mv b => simp only [h gs tm mv b he]
  | fill => rfl
  | stroke => rfl
  | xobject => rfl

theorem named_content (F : TFmt) {cfg : TCfg} (h : StdCfg cfg) : namedGlyphs F stdFont cfg.content = contentGlyphs F.b F.comps cfg.content := by
  unfold namedGlyphs contentGlyphs
  refine List.flatMap_congr fun i hi => ?_
  cases i with
  | br => rfl
  | skip => rfl
  | text ws look ids =>
    obtain ⟨j, hj⟩ := List.mem_iff_getElem?.1 hi
    obtain ⟨f, h1, h2⟩ := h look (contentLooks_mem hj)
    simp only
    rw [← h2, stdFont_new h1]
    rfl

/-- the font of the standard that a dictionary describes -/
theorem fontName_std {E : PdfEnv} {s : PdfD} (hi : OutInv s.doc) (hstd : StdInv s.doc) {level : Int} {b : Base} (hb : s.doc.withTrees E.num level = .ok b)
    (hread : ∀ o ∈ b.content, readable o.value = true) (flate : Bytes → Bytes) (u1 u2 : Bytes)
    (hok : (b.output flate u1 u2).err = none) (hsmall : (b.output flate u1 u2).written.length < 10 ^ 10)
    (hu1 : 60 ∉ u1 ∧ 62 ∉ u1) (hu2 : 60 ∉ u2 ∧ 62 ∉ u2) {R : PdfFile} (hR : openFile (b.output flate u1 u2).written = some R)
    {pg : Page} (hpg : pg ∈ s.doc.pages) {k : FKey} {f : Font} (hf : Fonts.new.at k = some f) (hd : (dget f.ref pg.fonts).isSome)
    {D : List (Bytes × PObj)} (hD : ∀ name : Str, (name.all fun c => decide (c.toNat < 256)) = true → resource b!"Font" (latinBytes name) D = dget name pg.fonts) :
    R.fontName D (bytesOf f.ref) = stdFont (bytesOf f.ref) := by
  obtain ⟨id, hid⟩ := Option.isSome_iff_exists.1 hd
  obtain ⟨base, h1, h2⟩ := hstd.font hpg hf hid
  obtain ⟨-, base', h3, h4, h5⟩ := new_std hf
  rw [h1] at h3
  cases h3
  obtain ⟨D', d1, d2, -⟩ := object_read (E := E) hi hb hread flate u1 u2 hok hsmall hu1 hu2 hR h2
    (by simp [stdFontDict, freshCatalog]) (by simp [stdFontDict, freshStream]) (by intro m; simp [stdFontDict, freshPage])
  have e : resource b!"Font" (bytesOf f.ref) D = some id := by rw [← hid]; exact hD _ (new_latin hf)
  have t1 : isName b!"Type" b!"Font" D' = true := by
    rw [d2.isName (k := c!"Type") (kb := b!"Type") (x := b!"/Font") (w := b!"Font") (by decide) rfl rfl rfl]
    rfl
  have t2 : isName b!"Subtype" b!"Type1" D' = true := by
    rw [d2.isName (k := c!"Subtype") (kb := b!"Subtype") (x := b!"/Type1") (w := b!"Type1") (by decide) rfl rfl rfl]
    rfl
  have t3 := d2.known (k := c!"BaseFont") (kb := b!"BaseFont") (by decide) rfl (v := nameBytes base) rfl h5
  rw [stdFont_new hf, h4, PdfFile.fontName, e, Option.bind_some, d1]
  simp only [t1, t2, t3, Bool.and_self, if_true]

/-- **C79.** Make a document with any sequence of calls of `add_page` and `text`, with paragraphs in the fonts of the standard and without lists.
If every value in it can be written, its file opens in a reader that finds on all pages in order exactly the characters of all paragraphs in
order, blanks apart, and each of them in the font of the family and mode that were given for it, and in the size, the colour and the rise that were given
for it. -/
theorem C79_styles_partial {E : PdfEnv} {T : TextEnv} (hT : T.Ok) {refOf : Str → Str → Str} {k : Sheet} {fuel : Nat} {version : Str} {l : List WriteOp}
    {p p' : FProc} {s : PdfD} (hl : ∀ a ∈ writtenTexts l, Readable T.fmt refOf a.cfg ∧ StdCfg a.cfg) (h : writtenDoc E T k fuel version l p = .ok (p', s))
    {level : Int} {b : Base} (hb : s.doc.withTrees E.num level = .ok b) (hread : ∀ o ∈ b.content, readable o.value = true)
    (flate inflate : Bytes → Bytes) (hinf : ∀ x, inflate (flate x) = x) (u1 u2 : Bytes) (hok : (b.output flate u1 u2).err = none)
    (hsmall : (b.output flate u1 u2).written.length < 10 ^ 10) (hu1 : 60 ∉ u1 ∧ 62 ∉ u1) (hu2 : 60 ∉ u2 ∧ 62 ∉ u2) :
    ∃ R N ids, openFile (b.output flate u1 u2).written = some R ∧ (∀ depth, N ≤ depth → R.pages depth = some ids) ∧
      (ids.mapM fun id => (R.dict id).bind (R.pageGlyphs inflate)).map List.flatten =
        some ((writtenTexts l).flatMap fun a => contentGlyphs T.fmt.b T.fmt.comps a.cfg.content) := by
  unfold writtenDoc at h
  split at h
  · cases h
  · rename_i r hn
    obtain ⟨p0, s0⟩ := r
    obtain ⟨rss, -, h1, h2, -, -, h3⟩ := writes_read hT l (new_read hn) (fun a ha => (hl a ha).1) h
    have h3 := h3 (fun a ha => (hl a ha).2) ⟨StdInv.new hn, by simp⟩
    rw [List.nil_append] at h1 h3
    obtain ⟨R, N, r1, r2, r3, -⟩ := document_read (E := E) h1.out hb hread flate u1 u2 hok hsmall hu1 hu2
    refine ⟨R, N, _, r1, r2, ?_⟩
    have hpages : ∀ (i : Nat) pg, s.doc.pages[i]? = some pg → (R.dict pg.objId).bind (R.pageGlyphs inflate) = some (eventGlyphs stdFont (paintedOn rss.flatten i)) := by
      intro i pg hpg
      have hmem := List.mem_of_getElem? hpg
      obtain ⟨-, str, ops, gs, e1, e2, -, e3⟩ := h1.page i pg hpg
      obtain ⟨D, d1, -, d3, d4, -⟩ := (r3 pg hmem).shown
      have he : R.pageEvents inflate D = some (paintedOn rss.flatten i) := by
        rw [PdfFile.pageEvents, d3 inflate hinf, Option.bind_some, e1, execStream, e2.ops]
        simp only [e3, Option.map_some]
      rw [d1, Option.bind_some, PdfFile.pageGlyphs, he, Option.map_some, Option.some.injEq]
      refine eventGlyphs_congr _ ?_
      intro gs tm mv str' hev
      obtain ⟨r, hr, hev⟩ := List.mem_flatMap.1 hev
      obtain ⟨hr, hri⟩ := List.mem_filter.1 hr
      obtain ⟨pg', k', f, g1, g2, g3, g4⟩ := h3.faces r hr gs tm mv str' hev
      rw [show r.page = i by simpa using hri, hpg] at g1
      cases g1
      rw [g3]
      exact fontName_std (E := E) h1.out h3.std hb hread flate u1 u2 hok hsmall hu1 hu2 r1 hmem g2 g4 fun name hname => (d4 name hname).1
    have hmap : ((s.doc.pages.map Page.objId).mapM fun id => (R.dict id).bind (R.pageGlyphs inflate)) =
        some ((List.range s.doc.pages.length).map fun i => eventGlyphs stdFont (paintedOn rss.flatten i)) := by
      have gen : ∀ (l : List Page) (n : Nat), (∀ (i : Nat) pg, l[i]? = some pg → (R.dict pg.objId).bind (R.pageGlyphs inflate) =
          some (eventGlyphs stdFont (paintedOn rss.flatten (n + i)))) → ((l.map Page.objId).mapM fun id => (R.dict id).bind (R.pageGlyphs inflate)) =
            some ((List.range l.length).map fun i => eventGlyphs stdFont (paintedOn rss.flatten (n + i))) := by
        intro l
        induction l with
        | nil => intro n _; rfl
        | cons a l ih =>
          intro n hh
          have := ih (n + 1) fun i pg hi => by
            rw [show n + 1 + i = n + (i + 1) by omega]
            exact hh (i + 1) pg (by simpa using hi)
          rw [List.map_cons, List.mapM_cons, this, hh 0 a (by simp), List.length_cons, List.range_succ_eq_map]
          simp only [List.map_cons, List.map_map]
          simp only [Option.bind_eq_bind, Option.bind_some, Option.pure_def, Option.some.injEq, List.cons.injEq, true_and]
          refine List.map_congr_left fun i _ => ?_
          simp only [Function.comp]
          rw [show n + 1 + i = n + (i + 1) by omega]
      have := gen s.doc.pages 0 (by simpa using hpages)
      simpa using this
    have flat : ∀ l : List (List Event), (l.map (eventGlyphs stdFont)).flatten = eventGlyphs stdFont l.flatten := by
      intro l
      induction l with
      | nil => rfl
      | cons a l ih => rw [List.map_cons, List.flatten_cons, ih, List.flatten_cons, eventGlyphs_append]
    have hall := paintedOn_all _ h1.sorted s.doc.pages.length h1.bound
    rw [hmap, Option.map_some, Option.some.injEq]
    have e1 : ((List.range s.doc.pages.length).map fun i => eventGlyphs stdFont (paintedOn rss.flatten i)).flatten =
        eventGlyphs stdFont (rss.flatten.flatMap TextShown.evs) := by
      rw [← hall, List.flatMap_def, ← flat, List.map_map]
      rfl
    rw [e1]
    have hg : ∀ (texts : List TextArgs) (rss : List (List TextShown)), List.Forall₂ (fun a rs => ∀ font, eventGlyphs font (rs.flatMap TextShown.evs) =
        namedGlyphs T.fmt font a.cfg.content) texts rss → (∀ a ∈ texts, StdCfg a.cfg) →
        eventGlyphs stdFont (rss.flatten.flatMap TextShown.evs) = texts.flatMap fun a => contentGlyphs T.fmt.b T.fmt.comps a.cfg.content := by
      intro texts rss hh
      induction hh with
      | nil => intro _; rfl
      | @cons a rs texts rss g _ ih =>
        intro hs
        rw [List.flatten_cons, List.flatMap_append, eventGlyphs_append, g stdFont, ih fun a ha => hs a (by simp [ha]), named_content _ (hs a (by simp)), List.flatMap_cons]
    exact hg _ _ (h2.imp fun _ _ h => h.2.2) fun a ha => (hl a ha).2

/-! ### An example -/

def ex79Bold : PState := ⟨c!"Times", c!"b", c!"F6", 8, ⟨some [1, 0, 0], false⟩, 2⟩
def ex79Ref : Str → Str → Str := fun family _ => if family = c!"Times" then c!"F6" else c!"F1"

/-- text in Helvetica, text in Times, bold, smaller, red and raised, and text in Helvetica again -/
def ex79Text : TextArgs := ⟨⟨[.text [c!"ab", c!" "] (samplePart [] none).look none, .text [c!"c", c!" ", c!"d"] ⟨ex79Bold, true, ⟨some [1], false⟩, none⟩ none,
  .text [c!"e"] (samplePart [] none).look none], 0, c!"l", 1, none⟩, none⟩

/-- two pages, with the same paragraph on them -/
def ex79Ops : List WriteOp := [.page ex77Sheet, .text ex79Text, .page ex77Sheet, .text ex79Text]

def ex79 : Option (PdfD × Base) :=
  match writtenDoc ex77E ex77T ex77Sheet 10 c!"1.5" ex79Ops ⟨[], []⟩ with
  | .error _ => none
  | .ok r => match r.2.doc.withTrees ex77E.num 1 with
    | .error _ => none
    | .ok b => some (r.2, b)

def ex79File : Option PdfFile := ex79.bind fun r => openFile (r.2.output id b!"00" b!"11").written

/-- The hypotheses of the theorem are met by it, ... -/
example : (ex79.map fun r => r.2.content.all (fun o => readable o.value) && ((r.2.output id b!"00" b!"11").err = none) &&
      decide ((r.2.output id b!"00" b!"11").written.length < 10 ^ 10)) = some true := by decide +kernel

example : ∀ a ∈ writtenTexts ex79Ops, Readable ex77T.fmt ex79Ref a.cfg ∧ StdCfg a.cfg := by
  have hx : ∀ x ∈ contentLooks ex79Text.cfg.content, x = (samplePart [] none).look ∨ x = ⟨ex79Bold, true, ⟨some [1], false⟩, none⟩ := by
    intro x hx
    simp only [ex79Text, contentLooks, List.filterMap_cons, List.filterMap_nil, List.mem_cons, List.not_mem_nil, or_false] at hx
    tauto
  have key : Readable ex77T.fmt ex79Ref ex79Text.cfg ∧ StdCfg ex79Text.cfg := by
    refine ⟨⟨⟨?_, (by intro lc h; cases h), (by intro lc h; cases h)⟩, ?_, rfl⟩, ?_⟩
    · intro x h
      rcases hx x h with rfl | rfl
      · exact ⟨⟨[1], rfl, Or.inl rfl⟩, rfl, by decide, by unfold NameOk; decide⟩
      · exact ⟨⟨[1, 0, 0], rfl, Or.inr rfl⟩, rfl, by decide, by unfold NameOk; decide⟩
    · intro x h
      rcases hx x h with rfl | rfl
      · exact ⟨⟨fun h => by simp [samplePart] at h, fun h => by simp [samplePart] at h⟩, rfl⟩
      · exact ⟨⟨fun _ => ⟨⟨[1], rfl, Or.inl rfl⟩, rfl⟩, fun _ => ⟨[1, 0, 0], rfl, Or.inr rfl⟩⟩, rfl⟩
    · intro x h
      rcases hx x h with rfl | rfl
      · exact ⟨⟨c!"F1", .std c!"Helvetica"⟩, by decide +kernel, rfl⟩
      · exact ⟨⟨c!"F6", .std c!"Times-Bold"⟩, by decide +kernel, rfl⟩
  intro a ha
  simp only [writtenTexts, ex79Ops, List.filterMap_cons, List.filterMap_nil, List.mem_cons, List.not_mem_nil, or_false] at ha
  rcases ha with rfl | rfl <;> exact key

/-- ... and the second page of the file read, by computation. -/
example : (ex79File.bind fun R => (R.pages 3).bind fun ids => (ids[1]?).bind fun n => (R.dict n).bind fun D => R.pageGlyphs id D) =
    some [⟨'a', some b!"Helvetica", b!"10", [b!"1"], b!"0"⟩, ⟨'b', some b!"Helvetica", b!"10", [b!"1"], b!"0"⟩,
      ⟨'c', some b!"Times-Bold", b!"8", [b!"1", b!"0", b!"0"], b!"2"⟩, ⟨'d', some b!"Times-Bold", b!"8", [b!"1", b!"0", b!"0"], b!"2"⟩,
      ⟨'e', some b!"Helvetica", b!"10", [b!"1"], b!"0"⟩] := by decide +kernel

end Verif
