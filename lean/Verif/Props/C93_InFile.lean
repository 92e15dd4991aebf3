import Verif.Props.C92_InFile
import Verif.Props.C93_Ledger
/-!
# C93: what is drawn inside tables and boxes, in the file -/
namespace Verif
open Spec

/-- what C92 asks for is more than what C93 asks for -/
theorem neat_in {Λ B C : Type} {pal : Palette B C} : ∀ (n : Nat) (c : Nest Λ B C n) (W : Rat), nestNeat pal n c W → nestIn n c W
  | 0, _, _, h => h
  | _ + 1, .leaf _ _, _, _ => trivial
  | n + 1, .table _ _, _, h =>
    ⟨h.1.rects, h.1.flag, h.1.border, h.1.cols, h.1.widths, h.1.pos, h.1.style, h.1.cells, h.1.wide, fun W hW i j => neat_in n _ _ (h.1.blank W hW i j),
      fun i j c x h1 h2 W hW i' => neat_in n _ _ (h.1.fits i j c x h1 h2 W hW i')⟩
  | n + 1, .box _ _ _, _, h => by
    obtain ⟨hg, m, m0, m1, m2⟩ := h
    refine ⟨hg, m, m0, m1, fun e he => ?_⟩
    have t := m2 e he
    cases e with
    | leaf c st => exact ⟨t.1, fun W hW => neat_in n _ _ (t.2 W hW)⟩
    | image i => exact t
    | group l t st => exact t.elim
    | child => exact t.elim

theorem box_neat_in {Λ B C : Type} {pal : Palette B C} {n : Nat} {gap : Option Rat} {els : List (CEl (Nest Λ B C n))} {Ws : List Rat} (h : BoxIn (nestNeat pal n) gap els Ws) :
    BoxIn (nestIn n) gap els Ws := by
  obtain ⟨hg, m, m0, m1, m2⟩ := h
  refine ⟨hg, m, m0, m1, fun e he => ?_⟩
  have t := m2 e he
  cases e with
  | leaf c st => exact ⟨t.1, fun W hW => neat_in n _ _ (t.2 W hW)⟩
  | image i => exact t
  | group l t st => exact t.elim
  | child => exact t.elim

section
variable {T : TextEnv} {fuel : Nat} {ε : Rat} {pal : Palette LineLook (PDFColor Rat)}

theorem fill_read (hε : T.fmt.Signed ε) (hp : PaletteOk pal) {f : TFill (PDFColor Rat)} (hf : pal.color f.color) {gs0 : GS} (h0 : gs0.cms = []) {e : Event}
    (he : Paints T.fmt.toNumFmt gs0 f.graphic e) : FillRead ε f e := by
  cases e with
  | fill gs path =>
    obtain ⟨h1, h2, h3⟩ := he
    refine ⟨h3.trans h0, ?_, _, _, _, _, h2, near hε _, near hε _, near hε _, near hε _⟩
    rw [h1]
    exact comps_read hε (hp.color _ hf).1
  | stroke => exact he.elim
  | text => exact he.elim
  | xobject => exact he.elim

theorem line_read (hε : T.fmt.Signed ε) (hp : PaletteOk pal) {l : BLine LineLook} (hl : pal.border ⟨l.width, l.look⟩) {gs0 : GS} (h0 : gs0.cms = []) {e : Event} {g : Graphic}
    (hg : l.graphic = .ok g) (he : Paints T.fmt.toNumFmt gs0 g e) : LineRead ε l e := by
  unfold BLine.graphic at hg
  split at hg
  · cases hg
  · rename_i y2 hy
    cases hg
    cases e with
    | stroke gs path =>
      obtain ⟨h1, h2, h3, h4, h5⟩ := he
      refine ⟨h5.trans h0, ?_, ?_, style_read hε h3, _, _, _, _, _, h4, hy, near hε _, near hε _, near hε _, near hε _⟩
      · rw [h1]
        exact comps_read hε (hp.border _ _ _ hl).1
      · rw [h2]
        exact near hε _
    | fill => exact he.elim
    | text => exact he.elim
    | xobject => exact he.elim

theorem forall₂_split {α β : Type} {R : α → β → Prop} : ∀ {a b : List α} {l : List β}, List.Forall₂ R (a ++ b) l → ∃ l1 l2, l = l1 ++ l2 ∧ List.Forall₂ R a l1 ∧ List.Forall₂ R b l2
  | [], _, l, h => ⟨[], l, rfl, .nil, h⟩
  | _ :: a, b, _, h => by
    cases h with
    | cons h1 h2 =>
      obtain ⟨l1, l2, rfl, h3, h4⟩ := forall₂_split h2
      exact ⟨_ :: l1, l2, rfl, .cons h1 h3, h4⟩

theorem flow_paints_all (hε : T.fmt.Signed ε) (hp : PaletteOk pal) {s : PdfD} {b : DocBox} {Ws : List Rat} (hin : BoxIn (nestNeat pal b.depth) b.gap b.els Ws)
    {c : CContent (DocNest b.depth) (TagPart DocPart) LineLook (PDFColor Rat)} (hc : BoxState T fuel b Ws c) {x y w h : Rat} (hw : w ∈ Ws)
    {o : FlowOut (CContent (DocNest b.depth) (TagPart DocPart) LineLook (PDFColor Rat))} (ho : contentFlow T fuel b c x y w h = .ok o) {rs : List Painted}
    (hrs : List.Forall₂ (PieceShows T s) o.marks rs) (hg : GraphicsShown T (o.fills ++ o.lines) rs) : PaintsAll T ε fuel b ⟨x, x + w, y, y - h⟩ rs := by
  obtain ⟨-, r, gs0, hr, hcm, hall⟩ := flow_shapes_in hε hp hin hc hw ho hrs hg
  obtain ⟨-, rects, ps, hW, hruns⟩ := hc
  unfold contentFlow at ho
  split at ho
  · cases ho
  · rename_i s' hs
    split at ho
    · cases ho
    · rename_i ls hls
      cases ho
      obtain ⟨calls, k1, k2⟩ := box_ledger (nest_fine (docExec T) fuel b.depth) (box_neat_in hin) hW hruns hw hs
      obtain ⟨h1, h2⟩ := box_neat (nest_neat pal (doc_plain T) fuel b.depth) hin hW hruns hw hs
      obtain ⟨es1, es2, he, f1, f2⟩ := forall₂_split hall
      refine ⟨rects, ps, c, s', calls, r, es1, es2, hruns, ?_, k1, fun k hk => nest_accounted _ _ _ _ _ _ _ _ _ (k2 k hk) (k1.ran k hk), hr, he, ?_, ?_⟩
      · simpa using hs
      · rw [← k1.fills]
        rw [List.forall₂_map_left_iff] at f1
        exact forall₂_left f1 fun f hf e he => fill_read hε hp (h2 f hf).color hcm he
      · rw [← k1.lines]
        have hl := lineGraphics_ok hls
        clear hall hg hrs he f1 hls hs k1 h2
        simp only at f2
        generalize s'.out.lines = l at hl h1
        induction hl generalizing es2 with
        | nil => cases f2; exact .nil
        | @cons a g l gs hag _ ih =>
          cases f2 with
          | cons q1 q2 => exact .cons (line_read hε hp (h1 a (by simp)).border hcm hag q1) (ih _ q2 fun a ha => h1 a (by simp [ha]))

end

/-- **C93, in the file.** A document built from sections, as in C92: in its file, the first piece of the section on every page paints all fills and then all lines that the contents of
its box drew there, each once and in order, with their own place and look up to rounding, and nothing else; and they are all that the tables and boxes inside drew. So does every running
section that has a place. Partial: see DESIGN.md. -/
theorem C93_file_partial {E : PdfEnv} {T : TextEnv} (hT : T.Ok) {refOf : Str → Str → Str} {B : Book} {fuel : Nat} {version : Str} {setup : PageSetup} {offset : Int}
    {roman : Bool} {l : List BookSec} {p : FProc} {s : BookSt} (h : madeBook E T fuel B version setup offset roman l p = .ok s) {Ws : List Rat}
    (hW : ∀ pl ∈ s.plans, pl.plan.sheet.w - pl.plan.sheet.right - pl.plan.sheet.left ∈ Ws) (hl : ∀ d ∈ l, BoxFit (docNest T refOf d.box.depth) d.box.els Ws)
    (hr : ∀ pl ∈ s.plans, ∀ b ∈ pl.plan.boxes, RunFits T refOf (fun n => B.shows n pl.plan.number) b) (him : ImagesOk (bookOps B l s.plans))
    {ε : Rat} (hε : T.fmt.Signed ε) {pal : Palette LineLook (PDFColor Rat)} (hpal : PaletteOk pal) (hin : ∀ d ∈ l, BoxIn (nestNeat pal d.box.depth) d.box.gap d.box.els Ws)
    (hrin : ∀ pl ∈ s.plans, ∀ b ∈ pl.plan.boxes, ∀ w, b.width = some w →
      BoxIn (nestNeat pal (B.shows b.name pl.plan.number).depth) (B.shows b.name pl.plan.number).gap (B.shows b.name pl.plan.number).els [w])
    {level : Int} {b : Base} (hb : s.pdf.doc.withTrees E.num level = .ok b) (hread : ∀ o ∈ b.content, readable o.value = true)
    (flate : Bytes → Bytes) (u1 u2 : Bytes) (hok : (b.output flate u1 u2).err = none) (hsmall : (b.output flate u1 u2).written.length < 10 ^ 10)
    (hu1 : 60 ∉ u1 ∧ 62 ∉ u1) (hu2 : 60 ∉ u2 ∧ 62 ∉ u2) :
    ∃ R ids dicts pages shown, openFile (b.output flate u1 u2).written = some R ∧ BookRead R flate E.num B l s.plans ids dicts pages shown ∧
      List.Forall₂ (fun (q : BookPage) (g : PageGroup) => ∃ d ∈ l, PaintsAll T ε fuel d.box (sheetArea q.plan.sheet) g.2) s.plans shown.flatten ∧
      List.Forall₂ (fun (q : BookPage) (g : PageGroup) => List.Forall₂ (fun (b : RunBox) rs => ∀ x y w h, b.x = some x → b.y = some y → b.width = some w → b.height = some h →
        PaintsAll T ε fuel (B.shows b.name q.plan.number) ⟨x, x + w, q.plan.sheet.h - y, q.plan.sheet.h - y - h⟩ rs) q.plan.boxes g.1) s.plans shown.flatten := by
  obtain ⟨R, ids, dicts, pages, shown, h1, h2, h3, h4, -⟩ := book_read hT h hW hl hr him hb hread flate u1 u2 hok hsmall hu1 hu2
  refine ⟨R, ids, dicts, pages, shown, h1, h2, ?_, ?_⟩
  · refine forall₂_left h4 ?_
    rintro pl hpl g ⟨d, hd, c, o, hc, ho, hrs, hg⟩
    have a1 := flow_paints_all hε hpal (hin d hd) hc (hW pl hpl) ho hrs hg
    have e1 : pl.plan.sheet.left + (pl.plan.sheet.w - pl.plan.sheet.right - pl.plan.sheet.left) = pl.plan.sheet.w - pl.plan.sheet.right := by ring
    have e2 : pl.plan.sheet.h - pl.plan.sheet.top - (pl.plan.sheet.h - pl.plan.sheet.top - pl.plan.sheet.bottom) = pl.plan.sheet.bottom := by ring
    rw [e1, e2] at a1
    exact ⟨d, hd, a1⟩
  · clear h4 h1 h2
    generalize shown.flatten = gs at h3
    clear hW him hread hb hok hsmall
    generalize s.plans = plans at *
    induction h3 with
    | nil => exact .nil
    | @cons p plans g gs hd _ ih =>
      refine .cons ?_ (ih (fun pl hpl => hr pl (List.mem_cons_of_mem _ hpl)) fun pl hpl => hrin pl (List.mem_cons_of_mem _ hpl))
      have a1 := hr p List.mem_cons_self
      have a2 := hrin p List.mem_cons_self
      clear ih hr hrin
      generalize p.plan.boxes = boxes at *
      generalize p.fits = fits at *
      generalize g.1 = rss at *
      induction hd with
      | nil => exact .nil
      | @cons b boxes fin fs rs rss hd _ ih =>
        refine .cons ?_ (ih (fun b hb => a1 b (List.mem_cons_of_mem _ hb)) fun b hb => a2 b (List.mem_cons_of_mem _ hb))
        obtain ⟨rect, o, ⟨e1, e2⟩, e3, e4, -, e5⟩ := hd
        intro x y w h f1 f2 f3 f4
        have k3 := a2 b List.mem_cons_self w f3
        obtain ⟨rx, ry, rw', rh⟩ := rect
        have g1 := e2.x x f1
        have g2 := e2.y y f2
        have g3 := e2.h h f4
        rw [f3] at e1
        cases e1
        simp only at g1 g2 g3 e3
        subst g1 g2 g3
        exact flow_paints_all hε hpal k3 ⟨rfl, [], [], by simp, rfl⟩ List.mem_cons_self e3 e4 e5

/-! ### Examples -/

/-- C93 for the box of C92, which has a block and a table, in rectangles of any height -/
example (fuel : Nat) (l : List (Rat × Rat × Rat)) : StepsAccounted blockExec fuel 3 ex92Box (l.map fun q => (q.1, q.2.1, 96, q.2.2)) :=
  C93_nested_partial blockExec fuel 3 _ ex92Box fun r hr => by
    obtain ⟨q, -, rfl⟩ := List.mem_map.1 hr
    exact neat_in 3 _ _ ex92_neat

/-- things that draw a line and a fill, and a text, `c` high -/
def ledgerExec (c : Nat) (x y w h : Rat) : Except PyErr (CellOut Nat Nat Nat Nat) :=
  if (c : Rat) ≤ h then .ok ⟨[c], [⟨x, y, x + w, some y, 1, c⟩], [⟨x, y - c, w, c, c, false⟩], c, true, c⟩ else .ok ⟨[], [], [], 0, false, c⟩

def ledgerStyle : CStyle := ⟨0, 0, 0, 0, none, false, .normal⟩

/-- the parts, lines and fills of a box in a rectangle of this height -/
def ledgerOut (cols : Nat) (els : List (CEl Nat)) (h : Rat) : Option (List Nat × List Nat × List Nat) :=
  match (CContent.new cols (some 10) els : CContent Nat Nat Nat Nat).run ledgerExec 500 0 100 90 h with
  | .ok s => some (leafParts s.out.parts, s.out.lines.map (·.look), s.out.fills.map (·.color))
  | .error _ => none

/-- a box of one column, with a box in it: three contents, three lines and three fills -/
example : ledgerOut 1 [.leaf 5 ledgerStyle, .child 1 none [.leaf 7 ledgerStyle, .leaf 9 ledgerStyle] ledgerStyle] 50 = some ([5, 7, 9], [5, 7, 9], [5, 7, 9]) := by
  decide +kernel

/-- the columns of this box are balanced: the texts of the attempts before the last one are gone, their lines and fills are still there (see C37) -/
example : (ledgerOut 2 [.leaf 5 ledgerStyle, .leaf 7 ledgerStyle] 50).map (fun r => (r.1, r.2.1.length, r.2.2.length)) = some ([5, 7], 13, 13) := by
  decide +kernel

end Verif
