import Verif.Props.C88_InPage
import Verif.Props.C92_Shapes
import Verif.Spec.ShapeRead
/-!
# C92: lines and fills of tables, in the file -/
namespace Verif
open Spec

section
variable {T : TextEnv} {refOf : Str → Str → Str} {fuel : Nat} {ε : Rat} {pal : Palette LineLook (PDFColor Rat)}

theorem lineGraphics_ok : ∀ {l : List (BLine LineLook)} {gs : List Graphic}, lineGraphics l = .ok gs → List.Forall₂ (fun a g => a.graphic = .ok g) l gs
  | [], gs, h => by cases h; exact .nil
  | a :: l, gs, h => by
    rw [lineGraphics] at h
    split at h
    · cases h
    · cases h
    · rename_i g gs' h1 h2
      cases h
      exact .cons h1 (lineGraphics_ok h2)

/-- what the lines and fills of a run are -/
theorem flow_shapes {b : DocBox} {Ws : List Rat} (hin : BoxIn (nestNeat pal b.depth) b.gap b.els Ws)
    {c : CContent (DocNest b.depth) (TagPart DocPart) LineLook (PDFColor Rat)} (hc : BoxState T fuel b Ws c) {x y w h : Rat} (hw : w ∈ Ws)
    {o : FlowOut (CContent (DocNest b.depth) (TagPart DocPart) LineLook (PDFColor Rat))} (ho : contentFlow T fuel b c x y w h = .ok o) :
    ∀ g ∈ o.fills ++ o.lines, (∃ f, FillFit pal ⟨x, x + w, y, y - h⟩ f ∧ g = f.graphic) ∨ ∃ l : BLine LineLook, LineFit pal ⟨x, x + w, y, y - h⟩ l ∧ l.graphic = .ok g := by
  obtain ⟨-, rects, ps, hW, hr⟩ := hc
  unfold contentFlow at ho
  split at ho
  · cases ho
  · rename_i s' hs
    split at ho
    · cases ho
    · rename_i ls hls
      cases ho
      obtain ⟨h1, h2⟩ := box_neat (nest_neat pal (doc_plain T) fuel b.depth) hin hW hr hw hs
      intro g hg
      rcases List.mem_append.1 hg with hg | hg
      · obtain ⟨f, hf, rfl⟩ := List.mem_map.1 hg
        exact .inl ⟨f, h2 f hf, rfl⟩
      · obtain ⟨l, hl, e⟩ := forall₂_right (lineGraphics_ok hls) g hg
        exact .inr ⟨l, h1 l hl, e⟩

theorem near (hε : T.fmt.Signed ε) (x : Rat) : NumNear ε (T.fmt.toNumFmt.b x) x := ⟨_, hε.val x, hε.err x⟩

theorem comps_read (hε : T.fmt.Signed ε) {c : PDFColor Rat} (hc : ∃ l, c.color = some l ∧ (l.length = 1 ∨ l.length = 3)) : ColorRead ε c (T.fmt.toNumFmt.comps c) := by
  obtain ⟨l, h1, -⟩ := hc
  refine ⟨l, h1, ?_⟩
  rw [NumFmt.comps, h1, Option.getD_some]
  clear h1
  induction l with
  | nil => exact .nil
  | cons a l ih => exact .cons (near hε a) ih

theorem style_read (hε : T.fmt.Signed ε) {w : Rat} {style : Str} {gs : GS} (h : dashOf T.fmt.toNumFmt style w = some (gs.cap, gs.dash)) : StyleRead ε w style gs := by
  unfold dashOf at h
  split at h
  · rename_i e
    simp only [Option.some.injEq, Prod.mk.injEq] at h
    refine .inr (.inl ⟨e, h.1.symm, _, _, h.2.symm, near hε _, ?_⟩)
    obtain ⟨v, h1, h2⟩ := near hε (w + w / 2)
    exact ⟨v, h1, by rwa [show 3 / 2 * w = w + w / 2 by ring]⟩
  · split at h
    · rename_i e
      simp only [Option.some.injEq, Prod.mk.injEq] at h
      exact .inr (.inr ⟨e, h.1.symm, _, _, h.2.symm, near hε _⟩)
    · split at h
      · rename_i e
        simp only [Option.some.injEq, Prod.mk.injEq] at h
        exact .inl ⟨e, h.1.symm, h.2.symm⟩
      · cases h

theorem fill_shape (hε : T.fmt.Signed ε) (hp : PaletteOk pal) {R : Area} {f : TFill (PDFColor Rat)} (hf : FillFit pal R f) {gs0 : GS} (h0 : gs0.cms = []) {e : Event}
    (he : Paints T.fmt.toNumFmt gs0 f.graphic e) : ShapeIn ε pal R e := by
  cases e with
  | fill gs path =>
    obtain ⟨h1, h2, h3⟩ := he
    refine ⟨h3.trans h0, ⟨f.color, hf.color, ?_⟩, _, _, _, _, _, _, _, _, h2, hε.val _, hε.val _, hε.val _, hε.val _, ?_⟩
    · rw [h1]
      exact comps_read hε (hp.color _ hf.color).1
    · have e1 := abs_le.1 (hε.err f.x)
      have e2 := abs_le.1 (hε.err f.y)
      have e3 := abs_le.1 (hε.err f.width)
      have e4 := abs_le.1 (hε.err f.height)
      obtain ⟨-, ⟨s1, s2⟩, l, r, t⟩ := hf
      refine ⟨?_, ?_, ?_, ?_, ?_⟩ <;> linarith
  | stroke => exact he.elim
  | text => exact he.elim
  | xobject => exact he.elim

theorem line_shape (hε : T.fmt.Signed ε) (hp : PaletteOk pal) {R : Area} {l : BLine LineLook} (hl : LineFit pal R l) {gs0 : GS} (h0 : gs0.cms = []) {e : Event} {g : Graphic}
    (hg : l.graphic = .ok g) (he : Paints T.fmt.toNumFmt gs0 g e) : ShapeIn ε pal R e := by
  unfold BLine.graphic at hg
  split at hg
  · cases hg
  · rename_i y2 hy
    cases hg
    cases e with
    | stroke gs path =>
      obtain ⟨h1, h2, h3, h4, h5⟩ := he
      refine ⟨h5.trans h0, l.look.1, l.width, l.look.2, hl.border, ?_, ?_, style_read hε h3, _, _, _, _, _, _, _, _, h4, hε.val _, hε.val _, hε.val _, hε.val _, ?_⟩
      · rw [h1]
        exact comps_read hε (hp.border _ _ _ hl.border).1
      · rw [h2]
        exact near hε _
      · have e1 := abs_le.1 (hε.err l.x1)
        have e2 := abs_le.1 (hε.err l.y1)
        have e3 := abs_le.1 (hε.err l.x2)
        have e4 := abs_le.1 (hε.err y2)
        rcases hl.place with ⟨a1, a2, a3, a4, a5⟩ | ⟨a1, a2, a3, a4, y2', a5, a6⟩
        · rw [hy] at a1
          cases a1
          refine .inl ⟨rfl, ?_, ?_, ?_, ?_⟩ <;> linarith
        · rw [hy] at a5
          cases a5
          refine .inr ⟨by rw [a1], ?_, ?_, ?_, ?_⟩ <;> linarith
    | fill => exact he.elim
    | text => exact he.elim
    | xobject => exact he.elim

/-- the pieces of a run -/
theorem flow_shapes_in (hε : T.fmt.Signed ε) (hp : PaletteOk pal) {s : PdfD} {b : DocBox} {Ws : List Rat} (hin : BoxIn (nestNeat pal b.depth) b.gap b.els Ws)
    {c : CContent (DocNest b.depth) (TagPart DocPart) LineLook (PDFColor Rat)} (hc : BoxState T fuel b Ws c) {x y w h : Rat} (hw : w ∈ Ws)
    {o : FlowOut (CContent (DocNest b.depth) (TagPart DocPart) LineLook (PDFColor Rat))} (ho : contentFlow T fuel b c x y w h = .ok o) {rs : List Painted}
    (hrs : List.Forall₂ (PieceShows T s) o.marks rs) (hg : GraphicsShown T (o.fills ++ o.lines) rs) :
    ShapesIn ε pal ⟨x, x + w, y, y - h⟩ rs ∧ ∃ r gs0, rs.head? = some r ∧ gs0.cms = [] ∧ List.Forall₂ (Paints T.fmt.toNumFmt gs0) (o.fills ++ o.lines) r.evs := by
  have hs := flow_shapes (T := T) (fuel := fuel) hin hc hw ho
  have hok : ∀ g ∈ o.fills ++ o.lines, g.Ok := by
    intro g hg
    rcases hs g hg with ⟨f, hf, rfl⟩ | ⟨l, hl, e⟩
    · exact hp.color _ hf.color
    · unfold BLine.graphic at e
      split at e
      · cases e
      · cases e
        exact hp.border _ _ _ hl.border
  obtain ⟨r0, gs0, hr0, hcm, hall⟩ := hg hok
  refine ⟨?_, r0, gs0, hr0, hcm, hall⟩
  cases hrs with
  | @cons a r l rs' ha hrs =>
    simp only [List.head?_cons, Option.some.injEq] at hr0
    subst hr0
    intro r' hr' hm e he
    rcases List.mem_cons.1 hr' with rfl | hr'
    · obtain ⟨g, hgm, hge⟩ := forall₂_right hall e he
      rcases hs g hgm with ⟨f, hf, rfl⟩ | ⟨l, hl, hlg⟩
      · exact fill_shape hε hp hf hcm hge
      · exact line_shape hε hp hl hcm hlg hge
    · obtain ⟨q, hq, hqs⟩ := forall₂_right hrs r' hr'
      obtain ⟨q, -, rfl⟩ := List.mem_map.1 hq
      cases q with
      | par x y w ht text graphics used ids cfg lines =>
        have := hqs.1
        rw [hm] at this
        cases this
      | image im x y w ht =>
        obtain ⟨-, gs, n, id, pg, h1, h2, -⟩ := hqs
        rw [h1, List.mem_singleton] at he
        subst he
        trivial

/-- the first piece of a page of a section paints all fills and lines that its content box leaves when it is run between the margins, after some runs on the pages before: fills first,
each with its own colour, and each line with its own colour, width and style -/
def SectionPainted (T : TextEnv) (fuel : Nat) (b : DocBox) (k : Sheet) (rs : List Painted) : Prop :=
  ∃ rects ps c o r gs0, (CContent.new 1 b.gap b.els).runs (docNestExec T fuel b.depth) fuel rects = .ok (ps, c) ∧
    contentFlow T fuel b c k.left (k.h - k.top) (k.w - k.right - k.left) (k.h - k.top - k.bottom) = .ok o ∧
    rs.head? = some r ∧ gs0.cms = [] ∧ List.Forall₂ (Paints T.fmt.toNumFmt gs0) (o.fills ++ o.lines) r.evs

end

/-- **C92, in the file.** A document built from sections, as in C84, whose boxes and tables are as in C92 above: in its file, on every page, all fills and lines of the tables of
the section are painted; they look like the borders and fills of its tables; the fills are between the left and right margin and not above the upper margin, and the lines, which
are horizontal or vertical, up to half of the width of the widest border; those of the running sections that have a place are in the same way inside of it.
`ε` is what the numbers may be rounded by. Partial: see DESIGN.md. -/
theorem C92_file_partial {E : PdfEnv} {T : TextEnv} (hT : T.Ok) {refOf : Str → Str → Str} {B : Book} {fuel : Nat} {version : Str} {setup : PageSetup} {offset : Int}
    {roman : Bool} {l : List BookSec} {p : FProc} {s : BookSt} (h : madeBook E T fuel B version setup offset roman l p = .ok s) {Ws : List Rat}
    (hW : ∀ pl ∈ s.plans, pl.plan.sheet.w - pl.plan.sheet.right - pl.plan.sheet.left ∈ Ws) (hl : ∀ d ∈ l, BoxFit (docNest T refOf d.box.depth) d.box.els Ws)
    (hr : ∀ pl ∈ s.plans, ∀ b ∈ pl.plan.boxes, RunFits T refOf (fun n => B.shows n pl.plan.number) b) (him : ImagesOk (bookOps B l s.plans))
    {ε : Rat} (hε : T.fmt.Signed ε) {pal : Palette LineLook (PDFColor Rat)} (hpal : PaletteOk pal) (hin : ∀ d ∈ l, BoxIn (nestNeat pal d.box.depth) d.box.gap d.box.els Ws)
    (hrin : ∀ pl ∈ s.plans, ∀ b ∈ pl.plan.boxes, ∀ w, b.width = some w →
      BoxIn (nestNeat pal (B.shows b.name pl.plan.number).depth) (B.shows b.name pl.plan.number).gap (B.shows b.name pl.plan.number).els [w])
    {level : Int} {b : Base} (hb : s.pdf.doc.withTrees E.num level = .ok b) (hread : ∀ o ∈ b.content, readable o.value = true)
    (flate : Bytes → Bytes) (u1 u2 : Bytes) (hok : (b.output flate u1 u2).err = none) (hsmall : (b.output flate u1 u2).written.length < 10 ^ 10)
    (hu1 : 60 ∉ u1 ∧ 62 ∉ u1) (hu2 : 60 ∉ u2 ∧ 62 ∉ u2) :
    ∃ R ids dicts pages shown, openFile (b.output flate u1 u2).written = some R ∧ BookRead R flate E.num B l s.plans ids dicts pages shown ∧
      List.Forall₂ (PageShapes ε pal) s.plans shown.flatten ∧
      List.Forall₂ (fun (q : BookPage) (g : PageGroup) => ∃ d ∈ l, SectionPainted T fuel d.box q.plan.sheet g.2) s.plans shown.flatten := by
  obtain ⟨R, ids, dicts, pages, shown, h1, h2, h3, h4, -⟩ := book_read hT h hW hl hr him hb hread flate u1 u2 hok hsmall hu1 hu2
  refine ⟨R, ids, dicts, pages, shown, h1, h2, ?_⟩
  have h5 : List.Forall₂ (fun (p : BookPage) (g : PageGroup) => ShapesIn ε pal (sheetArea p.plan.sheet) g.2 ∧ ∃ d ∈ l, SectionPainted T fuel d.box p.plan.sheet g.2)
      s.plans shown.flatten := by
    refine forall₂_left h4 ?_
    rintro pl hpl g ⟨d, hd, c, o, hc, ho, hrs, hg⟩
    obtain ⟨a1, r, gs0, a2, a3, a4⟩ := flow_shapes_in hε hpal (hin d hd) hc (hW pl hpl) ho hrs hg
    have e1 : pl.plan.sheet.left + (pl.plan.sheet.w - pl.plan.sheet.right - pl.plan.sheet.left) = pl.plan.sheet.w - pl.plan.sheet.right := by ring
    have e2 : pl.plan.sheet.h - pl.plan.sheet.top - (pl.plan.sheet.h - pl.plan.sheet.top - pl.plan.sheet.bottom) = pl.plan.sheet.bottom := by ring
    rw [e1, e2] at a1
    obtain ⟨-, rects, ps, -, hc⟩ := hc
    exact ⟨a1, d, hd, rects, ps, c, o, r, gs0, hc, ho, a2, a3, a4⟩
  have h6 : List.Forall₂ (fun (p : BookPage) (g : PageGroup) => List.Forall₂ (RunningShapes ε pal p.plan.sheet.h) p.plan.boxes g.1) s.plans shown.flatten := by
    clear h4 h5 h1 h2
    generalize shown.flatten = gs at h3
    clear hW him hread hb hok hsmall
    generalize s.plans = plans at *
    induction h3 with
    | nil => exact .nil
    | @cons p plans g gs hd _ ih =>
      refine .cons ?_ (ih (fun pl hpl => hr pl (List.mem_cons_of_mem _ hpl)) fun pl hpl => hrin pl (List.mem_cons_of_mem _ hpl))
      have a1 := hr p List.mem_cons_self
      have a2 := hrin p List.mem_cons_self
      clear ih hr hrin
      generalize p.plan.boxes = boxes at *
      generalize p.fits = fits at *
      generalize g.1 = rss at *
      induction hd with
      | nil => exact .nil
      | @cons b boxes fin fs rs rss hd _ ih =>
        refine .cons ?_ (ih (fun b hb => a1 b (List.mem_cons_of_mem _ hb)) fun b hb => a2 b (List.mem_cons_of_mem _ hb))
        obtain ⟨rect, o, ⟨e1, e2⟩, e3, e4, -, e5⟩ := hd
        intro x y w h f1 f2 f3 f4
        have k3 := a2 b List.mem_cons_self w f3
        obtain ⟨rx, ry, rw', rh⟩ := rect
        have g1 := e2.x x f1
        have g2 := e2.y y f2
        have g3 := e2.h h f4
        rw [f3] at e1
        cases e1
        simp only at g1 g2 g3 e3
        subst g1 g2 g3
        exact (flow_shapes_in hε hpal k3 ⟨rfl, [], [], by simp, rfl⟩ List.mem_cons_self e3 e4 e5).1
  clear h3 h4 hrin hr
  generalize shown.flatten = gs at *
  refine ⟨?_, h5.imp fun _ _ h => h.2⟩
  rw [List.forall₂_iff_get] at h5 h6 ⊢
  exact ⟨h5.1, fun i hi1 hi2 => ⟨(h5.2 i hi1 hi2).1, h6.2 i hi1 hi2⟩⟩

/-! ### An example -/

/-- white lines of width 1, and white fills -/
def ex92Look : Palette LineLook (PDFColor Rat) := ⟨fun b => b = ⟨1, ⟨some [1], true⟩, c!"solid"⟩, fun c => c = ⟨some [1], false⟩, 1 / 2⟩

theorem ex80_els_neat : BoxIn (nestNeat ex92Look 2) none ex80Els [90] := by
  have tidy : StyleTidy ex80CSt := ⟨by norm_num [ex80CSt], by norm_num [ex80CSt], by norm_num [ex80CSt], by norm_num [ex80CSt]⟩
  have margins : MarginsOk ex80Style := ⟨by norm_num [ex80Style], by norm_num [ex80Style], by norm_num [ex80Style], by norm_num [ex80Style]⟩
  refine ⟨(by intro g hg; cases hg), 90, by norm_num, (by intro W hW; rw [List.mem_singleton.1 hW]), ?_⟩
  intro e he
  simp only [ex80Els, List.mem_cons, List.not_mem_nil, or_false] at he
  rcases he with rfl | rfl | rfl
  · exact ⟨tidy, fun _ _ => trivial⟩
  · exact ⟨tidy, by norm_num [ex80CSt], by norm_num, by norm_num, by intro q hq; cases hq⟩
  · refine ⟨tidy, fun W hW => ?_⟩
    rw [List.mem_singleton.1 hW]
    have looks : TableLooks ex92Look (ex80Data 0 (ex80Leaf 0 3 (.par (ex80Par c!"three four five") [] true)) (ex80Leaf 0 4 (.image ex80Image false))) := by
      refine ⟨fun _ _ _ _ => rfl, fun _ _ _ => by norm_num [ex80Data, ex92Look], (by intro _ _ _ h; cases h), (by intro _ h; cases h; rfl), ?_⟩
      intro i j d c h hc
      match i, j with
      | 0, 0 => cases h; cases hc; rfl
      | 0, 1 => cases h; cases hc; rfl
      | 0, _ + 2 => cases h
      | _ + 1, _ => cases h
    refine ⟨?_, looks⟩
    have hc : ∀ {i j d}, cellAt (ex80Data 0 (ex80Leaf 0 3 (.par (ex80Par c!"three four five") [] true)) (ex80Leaf 0 4 (.image ex80Image false))).content i j = some d →
        i = 0 ∧ j < 2 ∧ d.rows = 0 ∧ d.cols = 0 ∧ d.style = ex80Style := by
      intro i j d h
      match i, j with
      | 0, 0 => cases h; exact ⟨rfl, by decide, rfl, rfl, rfl⟩
      | 0, 1 => cases h; exact ⟨rfl, by decide, rfl, rfl, rfl⟩
      | 0, _ + 2 => cases h
      | _ + 1, _ => cases h
    refine ⟨⟨?_, ?_⟩, .inl ?_, ?_, ?_, ⟨none, ?_⟩, ?_, margins, ?_, ?_, fun _ _ _ _ => trivial, ?_⟩
    · intro i j c i' j' c' p q h h'
      obtain ⟨h1, h2, h3, h4, h5⟩ := hc h
      obtain ⟨k1, k2, k3, k4, k5⟩ := hc h'
      omega
    · intro i j c h
      obtain ⟨h1, h2, h3, h4, h5⟩ := hc h
      rw [h3, h4]
      exact ⟨by rw [h1]; exact Nat.zero_lt_one, h2⟩
    · intro i j c h
      exact .inl (by rw [(hc h).2.2.1]; exact Nat.zero_le 1)
    · intro i j v; exact (by norm_num : (0 : Rat) ≤ 1)
    · exact Nat.zero_lt_two
    · show tableWidths 2 none = .ok [1 / 2, 1 / 2]
      decide +kernel
    · intro v hv
      simp only [ex80Data, List.mem_cons, List.not_mem_nil, or_false] at hv
      rcases hv with rfl | rfl <;> norm_num
    · intro i j c h
      rw [(hc h).2.2.2.2]
      exact margins
    · intro V hV
      rw [List.mem_singleton.1 hV]
      norm_num [ex80CSt]
    · intro i j d x hd hx V hV i'
      match i, j with
      | 0, 0 => cases hd; cases hx; trivial
      | 0, 1 => cases hd; cases hx; trivial
      | 0, _ + 2 => cases hd
      | _ + 1, _ => cases hd

/-- C92 is about the document of C84 -/
example : PaletteOk ex92Look ∧ (∀ d ∈ ex84Secs, BoxIn (nestNeat ex92Look d.box.depth) d.box.gap d.box.els [90]) ∧ ∀ name number, ∀ w : Rat, 0 ≤ w →
    BoxIn (nestNeat ex92Look (ex84Book.shows name number).depth) (ex84Book.shows name number).gap (ex84Book.shows name number).els [w] := by
  refine ⟨⟨?_, (by intro c h; cases h; exact ⟨⟨[1], rfl, .inl rfl⟩, rfl⟩)⟩, ?_, ?_⟩
  · rintro w c style h
    cases h
    exact ⟨⟨[1], rfl, .inl rfl⟩, rfl, .inr (.inr rfl)⟩
  · intro d hd
    simp only [ex84Secs, List.mem_cons, List.not_mem_nil, or_false] at hd
    rcases hd with rfl | rfl <;> exact ex80_els_neat
  · intro name number w hw
    refine ⟨(by intro g hg; cases hg), w, hw, (by intro W hW; rw [List.mem_singleton.1 hW]), ?_⟩
    intro e he
    have he : e = .leaf (ex80Leaf 0 0 (.par (ex80Par (name ++ ' ' :: number)) [] true)) ex80CSt := List.mem_singleton.1 he
    subst he
    exact ⟨⟨by norm_num [ex80CSt], by norm_num [ex80CSt], by norm_num [ex80CSt], by norm_num [ex80CSt]⟩, fun _ _ => trivial⟩

/-- the lines of its tables: both ends, width and colour -/
def ex92Strokes : Option (List (Option (List (List (Option Rat))))) :=
  ex84File.bind fun R => (R.pages 3).map fun ids => ids.map fun n => (R.dict n).bind fun D => (R.pageEvents id D).map fun e =>
    e.filterMap fun | .stroke gs [.move a b, .line c d] => some ([numVal a, numVal b, numVal c, numVal d, numVal gs.width] ++ gs.stroke.map numVal) | _ => none

/-- the tables are on the second and the last page; numbers are written without digits after the point, so the ends are between the margins 5 and 95 and below 60 up to 1/2 and 1 -/
example : ex92Strokes =
    let l := [[some 4, some 60, some 95, some 60, some 1, some 1], [some 4, some 26, some 95, some 26, some 1, some 1],
      [some 5, some 60, some 5, some 25, some 1, some 1], [some 50, some 60, some 50, some 25, some 1, some 1], [some 95, some 60, some 95, some 25, some 1, some 1]]
    some [some [], some l, some [], some l] := by decide +kernel

/-- their fills: lower left corner, width, height and colour -/
def ex92Fills : Option (List (Option (List (List (Option Rat))))) :=
  ex84File.bind fun R => (R.pages 3).map fun ids => ids.map fun n => (R.dict n).bind fun D => (R.pageEvents id D).map fun e =>
    e.filterMap fun | .fill gs [.rect x y w h] => some ([numVal x, numVal y, numVal w, numVal h] ++ gs.fill.map numVal) | _ => none

example : ex92Fills =
    let l := [[some 5, some 26, some 45, some 34, some 1], [some 50, some 26, some 45, some 34, some 1]]
    some [some [], some l, some [], some l] := by decide +kernel

end Verif
