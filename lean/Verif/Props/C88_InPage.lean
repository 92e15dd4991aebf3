import Verif.Props.C84_Book
import Verif.Props.C87_InNest
import Verif.Spec.InPage
/-!
# C88: in the file, the sections of a document are between the margins -/
namespace Verif
open Spec

section
variable {T : TextEnv} {refOf : Str → Str → Str} {fuel : Nat} {ε : Rat}

/-- a paragraph whose lines have a height -/
def HasHeight : DocPart → Prop
  | .par _ _ _ _ _ _ _ _ cfg _ => 0 < cfg.lineHeight
  | .image .. => True

theorem doc_height : ∀ l x y w h o, (docSpec T refOf).fit l w → docExec T l x y w h = .ok o → ∀ p ∈ o.parts, HasHeight p := by
  intro l x y w h o hf ho p hp
  cases l with
  | par a rects correct =>
    have hl : 0 < a.cfg.lineHeight := hf.1
    simp only [docExec, docParExec] at ho
    split at ho
    · cases ho
      cases hp
    · split at ho
      · cases ho
      · cases ho
        rw [List.mem_singleton.1 hp]
        exact hl
  | image im shown =>
    cases shown with
    | true =>
      cases ho
      cases hp
    | false =>
      simp only [docExec, docImageExec] at ho
      split at ho
      · cases ho
      · split at ho
        · cases ho
          rw [List.mem_singleton.1 hp]
          trivial
        · cases ho
          cases hp

theorem tagDoc_area (images : Nat → PImg) (p : TagPart DocPart) : DocPart.area (tagDoc images p) = tagArea DocPart.area p := by
  cases p <;> rfl

/-- the parts of a content box -/
theorem content_parts_in {b : DocBox} {Ws : List Rat} (hb : BoxFit (docNest T refOf b.depth) b.els Ws) (hin : BoxIn (nestIn b.depth) b.gap b.els Ws)
    {c : CContent (DocNest b.depth) (TagPart DocPart) LineLook (PDFColor Rat)} (hc : BoxState T fuel b Ws c) {x y w h : Rat} (hw : w ∈ Ws)
    {o : FlowOut (CContent (DocNest b.depth) (TagPart DocPart) LineLook (PDFColor Rat))} (ho : contentFlow T fuel b c x y w h = .ok o) :
    ∀ p ∈ o.parts, HasHeight p ∧ (p.area.Seen → p.area.Within ⟨x, x + w, y, y - h⟩) := by
  obtain ⟨hf, rects, ps, hW, hr⟩ := hc
  unfold contentFlow at ho
  split at ho
  · cases ho
  · rename_i s' hs
    split at ho
    · cases ho
    · cases ho
      have hr' : (CContent.new 1 b.gap b.els).runs (docNestExec T fuel b.depth) fuel (rects ++ [(x, y, w, h)]) = .ok (ps ++ s'.out.parts, s') := by
        rw [contentBox_runs_snoc, hr]
        simp [hf, hs]
      have hW' : ∀ r ∈ rects ++ [(x, y, w, h)], r.2.2.1 ∈ Ws := by
        intro r hr
        rcases List.mem_append.1 hr with hr | hr
        · exact hW r hr
        · simp only [List.mem_singleton] at hr
          subst hr
          exact hw
      intro p hp
      obtain ⟨q, hq, rfl⟩ := List.mem_map.1 hp
      constructor
      · have h1 := box_parts (docNest_good fuel b.depth) (nest_parts (B := LineLook) (C := PDFColor Rat) (P := HasHeight) doc_good doc_height fuel b.depth) hb hW' hr' q (List.mem_append.2 (Or.inr hq))
        cases hj : q.join with
        | leaf l => rw [hj] at h1; exact h1
        | image => trivial
      · rw [tagDoc_area, cArea_join]
        exact box_fine_in (nest_keeps (keeps_in (doc_keeps T)) fuel b.depth) hin hW hr hw hs q hq

/-- a piece of a part -/
theorem piece_in (hε : T.fmt.Signed ε) {s : PdfD} {R : Area} {p : DocPart} (hh : HasHeight p) (hp : p.area.Seen → p.area.Within R) {r : Painted} (h : PieceShows T s (some p) r) :
    ∀ e ∈ r.evs, EventIn ε R e := by
  intro e he
  cases p with
  | par x y w ht text graphics used ids cfg lines =>
    obtain ⟨-, -, -, hpl, hat, -⟩ := h
    have hh : 0 < cfg.lineHeight := hh
    cases e with
    | text gs tm mv s =>
      obtain ⟨-, hat⟩ := hat ε hε hh.le
      obtain ⟨x', y', h1, h2, h3, -, h4⟩ := hat gs tm mv s he
      have h4 := h4 hh
      have hs : (DocPart.area (.par x y w ht text graphics used ids cfg lines)).Seen := by
        show y - ht < y
        linarith
      obtain ⟨-, -, k3, k4⟩ := hp hs
      have k3 : y ≤ R.top := k3
      have k4 : R.bottom ≤ y - ht := k4
      exact ⟨x', y', h1, by linarith, by linarith⟩
    | xobject => exact (hpl _ he).elim
    | fill => trivial
    | stroke => trivial
  | image im x y w ht =>
    obtain ⟨-, gs, n, id, pg, h1, h2, -⟩ := h
    rw [h1, List.mem_singleton] at he
    subst he
    refine ⟨_, _, _, _, _, _, _, _, h2, hε.val w, hε.val ht, hε.val x, hε.val y, fun hlt => ?_⟩
    have e1 := abs_le.1 (hε.err w)
    have e2 := abs_le.1 (hε.err ht)
    have e3 := abs_le.1 (hε.err x)
    have e4 := abs_le.1 (hε.err y)
    have hs : (DocPart.area (.image im x y w ht)).Seen := by
      show y < y + ht
      linarith
    obtain ⟨k1, k2, k3, k4⟩ := hp hs
    have k1 : R.left ≤ x := k1
    have k2 : x + w ≤ R.right := k2
    have k3 : y + ht ≤ R.top := k3
    have k4 : R.bottom ≤ y := k4
    refine ⟨by linarith, by linarith, by linarith, by linarith⟩

theorem flow_in (hε : T.fmt.Signed ε) {s : PdfD} {b : DocBox} {Ws : List Rat} (hb : BoxFit (docNest T refOf b.depth) b.els Ws) (hin : BoxIn (nestIn b.depth) b.gap b.els Ws)
    {c : CContent (DocNest b.depth) (TagPart DocPart) LineLook (PDFColor Rat)} (hc : BoxState T fuel b Ws c) {x y w h : Rat} (hw : w ∈ Ws)
    {o : FlowOut (CContent (DocNest b.depth) (TagPart DocPart) LineLook (PDFColor Rat))} (ho : contentFlow T fuel b c x y w h = .ok o) {rs : List Painted}
    (hrs : List.Forall₂ (PieceShows T s) o.marks rs) : ∀ r ∈ rs, ∀ e ∈ r.evs, EventIn ε ⟨x, x + w, y, y - h⟩ e := by
  intro r hr
  obtain ⟨a, ha, hra⟩ := forall₂_right hrs r hr
  cases a with
  | none =>
    intro e he
    have := hra.2 e he
    cases e with
    | text => exact this.elim
    | xobject => exact this.elim
    | fill => trivial
    | stroke => trivial
  | some p =>
    have hp : p ∈ o.parts := by
      simpa [FlowOut.marks] using ha
    obtain ⟨h1, h2⟩ := content_parts_in hb hin hc hw ho p hp
    exact piece_in hε h1 h2 hra

end

theorem forall₂_left {α β : Type} {P : α → β → Prop} {Q : α → β → Prop} {l : List α} {l' : List β} (h : List.Forall₂ P l l') (hQ : ∀ a ∈ l, ∀ b, P a b → Q a b) : List.Forall₂ Q l l' := by
  induction h with
  | nil => exact .nil
  | cons h _ ih => exact .cons (hQ _ List.mem_cons_self _ h) (ih fun a ha => hQ a (List.mem_cons_of_mem _ ha))

/-- **C88.** A document built from sections, as in C84, whose boxes and tables are as in C87: in its file, on every page, the lines of text of the section are between
the upper and lower margin, and its images that have a height between all of the margins; the text and images of the running sections that have a place are in the same way inside of it.
`ε` is what the numbers may be rounded by. Partial: see DESIGN.md. -/
theorem C88_margins_partial {E : PdfEnv} {T : TextEnv} (hT : T.Ok) {refOf : Str → Str → Str} {B : Book} {fuel : Nat} {version : Str} {setup : PageSetup} {offset : Int}
    {roman : Bool} {l : List BookSec} {p : FProc} {s : BookSt} (h : madeBook E T fuel B version setup offset roman l p = .ok s) {Ws : List Rat}
    (hW : ∀ pl ∈ s.plans, pl.plan.sheet.w - pl.plan.sheet.right - pl.plan.sheet.left ∈ Ws) (hl : ∀ d ∈ l, BoxFit (docNest T refOf d.box.depth) d.box.els Ws)
    (hr : ∀ pl ∈ s.plans, ∀ b ∈ pl.plan.boxes, RunFits T refOf (fun n => B.shows n pl.plan.number) b) (him : ImagesOk (bookOps B l s.plans))
    {ε : Rat} (hε : T.fmt.Signed ε) (hin : ∀ d ∈ l, BoxIn (nestIn d.box.depth) d.box.gap d.box.els Ws)
    (hrin : ∀ pl ∈ s.plans, ∀ b ∈ pl.plan.boxes, ∀ w, b.width = some w →
      BoxIn (nestIn (B.shows b.name pl.plan.number).depth) (B.shows b.name pl.plan.number).gap (B.shows b.name pl.plan.number).els [w])
    {level : Int} {b : Base} (hb : s.pdf.doc.withTrees E.num level = .ok b) (hread : ∀ o ∈ b.content, readable o.value = true)
    (flate : Bytes → Bytes) (u1 u2 : Bytes) (hok : (b.output flate u1 u2).err = none) (hsmall : (b.output flate u1 u2).written.length < 10 ^ 10)
    (hu1 : 60 ∉ u1 ∧ 62 ∉ u1) (hu2 : 60 ∉ u2 ∧ 62 ∉ u2) :
    ∃ R ids dicts pages shown, openFile (b.output flate u1 u2).written = some R ∧ BookRead R flate E.num B l s.plans ids dicts pages shown ∧
      List.Forall₂ (PageIn ε) s.plans shown.flatten := by
  obtain ⟨R, ids, dicts, pages, shown, h1, h2, h3, h4, -⟩ := book_read hT h hW hl hr him hb hread flate u1 u2 hok hsmall hu1 hu2
  refine ⟨R, ids, dicts, pages, shown, h1, h2, ?_⟩
  have h5 : List.Forall₂ (fun (p : BookPage) (g : PageGroup) => ∀ r ∈ g.2, ∀ e ∈ r.evs, EventIn ε (sheetArea p.plan.sheet) e) s.plans shown.flatten := by
    refine forall₂_left h4 ?_
    rintro pl hpl g ⟨d, hd, c, o, hc, ho, hrs, -⟩ r hr e he
    have := flow_in hε (hl d hd) (hin d hd) hc (hW pl hpl) ho hrs r hr e he
    have e1 : pl.plan.sheet.left + (pl.plan.sheet.w - pl.plan.sheet.right - pl.plan.sheet.left) = pl.plan.sheet.w - pl.plan.sheet.right := by ring
    have e2 : pl.plan.sheet.h - pl.plan.sheet.top - (pl.plan.sheet.h - pl.plan.sheet.top - pl.plan.sheet.bottom) = pl.plan.sheet.bottom := by ring
    rw [e1, e2] at this
    exact this
  have h6 : List.Forall₂ (fun (p : BookPage) (g : PageGroup) => List.Forall₂ (RunningIn ε p.plan.sheet.h) p.plan.boxes g.1) s.plans shown.flatten := by
    clear h4 h5 h1 h2
    generalize shown.flatten = gs at h3
    clear hW him hread hb hok hsmall
    generalize s.plans = plans at *
    induction h3 with
    | nil => exact .nil
    | @cons p plans g gs hd _ ih =>
      refine .cons ?_ (ih (fun pl hpl => hr pl (List.mem_cons_of_mem _ hpl)) fun pl hpl => hrin pl (List.mem_cons_of_mem _ hpl))
      have a1 := hr p List.mem_cons_self
      have a2 := hrin p List.mem_cons_self
      clear ih hr hrin
      generalize p.plan.boxes = boxes at *
      generalize p.fits = fits at *
      generalize g.1 = rss at *
      induction hd with
      | nil => exact .nil
      | @cons b boxes fin fs rs rss hd _ ih =>
        refine .cons ?_ (ih (fun b hb => a1 b (List.mem_cons_of_mem _ hb)) fun b hb => a2 b (List.mem_cons_of_mem _ hb))
        obtain ⟨rect, o, ⟨e1, e2⟩, e3, e4, -⟩ := hd
        obtain ⟨w0, k1, k2⟩ := a1 b List.mem_cons_self
        intro x y w h f1 f2 f3 f4
        have k3 := a2 b List.mem_cons_self w f3
        obtain ⟨rx, ry, rw', rh⟩ := rect
        have g1 := e2.x x f1
        have g2 := e2.y y f2
        have g3 := e2.h h f4
        rw [f3] at k1 e1
        cases k1
        cases e1
        simp only at g1 g2 g3 e3
        subst g1 g2 g3
        exact flow_in hε k2 k3 ⟨rfl, [], [], by simp, rfl⟩ List.mem_cons_self e3 e4
  clear h3 h4 hrin hr
  generalize shown.flatten = gs at *
  rw [List.forall₂_iff_get] at h5 h6 ⊢
  exact ⟨h5.1, fun i hi1 hi2 => ⟨h5.2 i hi1 hi2, h6.2 i hi1 hi2⟩⟩

/-! ### An example -/

theorem ex80_els_in : BoxIn (nestIn 2) none ex80Els [90] := by
  have tidy : StyleTidy ex80CSt := ⟨by norm_num [ex80CSt], by norm_num [ex80CSt], by norm_num [ex80CSt], by norm_num [ex80CSt]⟩
  have margins : MarginsOk ex80Style := ⟨by norm_num [ex80Style], by norm_num [ex80Style], by norm_num [ex80Style], by norm_num [ex80Style]⟩
  refine ⟨(by intro g hg; cases hg), 90, by norm_num, (by intro W hW; rw [List.mem_singleton.1 hW]), ?_⟩
  intro e he
  simp only [ex80Els, List.mem_cons, List.not_mem_nil, or_false] at he
  rcases he with rfl | rfl | rfl
  · exact ⟨tidy, fun _ _ => trivial⟩
  · exact ⟨tidy, by norm_num [ex80CSt], by norm_num, by norm_num, by intro q hq; cases hq⟩
  · refine ⟨tidy, fun W hW => ?_⟩
    rw [List.mem_singleton.1 hW]
    have hc : ∀ {i j d}, cellAt (ex80Data 0 (ex80Leaf 0 3 (.par (ex80Par c!"three four five") [] true)) (ex80Leaf 0 4 (.image ex80Image false))).content i j = some d →
        i = 0 ∧ j < 2 ∧ d.rows = 0 ∧ d.cols = 0 ∧ d.style = ex80Style := by
      intro i j d h
      match i, j with
      | 0, 0 => cases h; exact ⟨rfl, by decide, rfl, rfl, rfl⟩
      | 0, 1 => cases h; exact ⟨rfl, by decide, rfl, rfl, rfl⟩
      | 0, _ + 2 => cases h
      | _ + 1, _ => cases h
    refine ⟨⟨?_, ?_⟩, .inl ?_, ?_, ?_, ⟨none, ?_⟩, ?_, margins, ?_, ?_, fun _ _ _ _ => trivial, ?_⟩
    · intro i j c i' j' c' p q h h'
      obtain ⟨h1, h2, h3, h4, h5⟩ := hc h
      obtain ⟨k1, k2, k3, k4, k5⟩ := hc h'
      omega
    · intro i j c h
      obtain ⟨h1, h2, h3, h4, h5⟩ := hc h
      rw [h3, h4]
      exact ⟨by rw [h1]; exact Nat.zero_lt_one, h2⟩
    · intro i j c h
      exact .inl (by rw [(hc h).2.2.1]; exact Nat.zero_le 1)
    · intro i j v; exact (by norm_num : (0 : Rat) ≤ 1)
    · exact Nat.zero_lt_two
    · show tableWidths 2 none = .ok [1 / 2, 1 / 2]
      decide +kernel
    · intro v hv
      simp only [ex80Data, List.mem_cons, List.not_mem_nil, or_false] at hv
      rcases hv with rfl | rfl <;> norm_num
    · intro i j c h
      rw [(hc h).2.2.2.2]
      exact margins
    · intro V hV
      rw [List.mem_singleton.1 hV]
      norm_num [ex80CSt]
    · intro i j d x hd hx V hV i'
      match i, j with
      | 0, 0 => cases hd; cases hx; trivial
      | 0, 1 => cases hd; cases hx; trivial
      | 0, _ + 2 => cases hd
      | _ + 1, _ => cases hd

/-- C88 is about the document of C84 -/
example : (∀ d ∈ ex84Secs, BoxIn (nestIn d.box.depth) d.box.gap d.box.els [90]) ∧ ∀ name number, ∀ w : Rat, 0 ≤ w →
    BoxIn (nestIn (ex84Book.shows name number).depth) (ex84Book.shows name number).gap (ex84Book.shows name number).els [w] := by
  constructor
  · intro d hd
    simp only [ex84Secs, List.mem_cons, List.not_mem_nil, or_false] at hd
    rcases hd with rfl | rfl <;> exact ex80_els_in
  · intro name number w hw
    refine ⟨(by intro g hg; cases hg), w, hw, (by intro W hW; rw [List.mem_singleton.1 hW]), ?_⟩
    intro e he
    have he : e = .leaf (ex80Leaf 0 0 (.par (ex80Par (name ++ ' ' :: number)) [] true)) ex80CSt := List.mem_singleton.1 he
    subst he
    exact ⟨⟨by norm_num [ex80CSt], by norm_num [ex80CSt], by norm_num [ex80CSt], by norm_num [ex80CSt]⟩, fun _ _ => trivial⟩

/-- where the lines of text are -/
def ex88Lines : Option (List (Option (List (Option (Rat × Rat))))) :=
  ex84File.bind fun R => (R.pages 3).map fun ids => ids.map fun n => (R.dict n).bind fun D => (R.pageEvents id D).map fun e =>
    (e.filterMap fun | .text gs tm mv s => some (Event.text gs tm mv s).origin | _ => none).dedup

/-- the pages are 75 high and have margins of 15 above and below and 5 at the sides; on the last two there is a footer -/
example : ex88Lines = some [some [some (5, 63), some (5, 49)], some [some (5, 63), some (6, 47), some (6, 37), some (6, 27)],
    some [some (5, 63), some (5, 4), some (5, 49)], some [some (5, 63), some (5, 4), some (6, 47), some (6, 37), some (6, 27)]] := by decide +kernel

/-- the matrices of the images -/
def ex88Images : Option (List (Option (List (List (List (Option Rat)))))) :=
  ex84File.bind fun R => (R.pages 3).map fun ids => ids.map fun n => (R.dict n).bind fun D => (R.pageEvents id D).map fun e =>
    e.filterMap fun | .xobject gs _ => some (gs.cms.map fun l => l.map numVal) | _ => none

example : ex88Images = some [some [[[some 90, some 0, some 0, some 22, some 5, some 23]]], some [[[some 42, some 0, some 0, some 21, some 51, some 37]]],
    some [[[some 90, some 0, some 0, some 22, some 5, some 23]]], some [[[some 42, some 0, some 0, some 21, some 51, some 37]]]] := by decide +kernel

end Verif
