import Verif.Model.PdfDoc
import Verif.Props.C80_FileTables
/-! What the sections and running sections of a document put on its pages. -/
namespace Verif
open Spec

variable {E : PdfEnv} {T : TextEnv} {refOf : Str → Str → Str} {L : PImg → Prop}

/-- any width -/
abbrev anyW : Rat → Prop := fun _ => True

/-! ### The pages of pieces -/

theorem seenOn_append (a b : List Painted) (i : Nat) : seenOn (a ++ b) i = seenOn a i ++ seenOn b i := by
  simp [seenOn]

/-- an empty piece -/
theorem DrawnDoc.mark {W : Rat → Prop} {s : PdfD} {runs : List Painted} (h : DrawnDoc E L W s runs) (hp : s.doc.pages ≠ []) :
    DrawnDoc E L W s (runs ++ [⟨s.doc.pageIndex, [], none⟩]) := by
  have hidx := h.index hp
  refine ⟨h.out, h.inv, h.index, ?_, ?_, ?_, h.imgs, fun hL => by simpa [runPlaces] using h.links hL, by simpa [runPlaces] using h.clean⟩
  · intro i pg hi
    rw [seenOn_snoc]
    simpa using h.page i pg hi
  · intro r hr
    rcases List.mem_append.1 hr with hr | hr
    · exact h.bound r hr
    · simp only [List.mem_singleton] at hr
      subst hr
      show s.doc.pageIndex < _
      omega
  · rw [List.map_append, List.pairwise_append]
    refine ⟨h.sorted, by simp, ?_⟩
    intro a ha b hb
    simp only [List.map_cons, List.map_nil, List.mem_singleton] at hb
    subst hb
    obtain ⟨r, hr, rfl⟩ := List.mem_map.1 ha
    have := h.bound r hr
    show r.page ≤ s.doc.pageIndex
    omega

theorem DrawnDoc.unmark {W : Rat → Prop} {s : PdfD} {runs rs : List Painted} {i : Nat} (h : DrawnDoc E L W s (runs ++ [⟨i, [], none⟩] ++ rs)) :
    DrawnDoc E L W s (runs ++ rs) ∧ ∀ r ∈ rs, i ≤ r.page := by
  have hs := h.sorted
  simp only [List.append_assoc, List.map_append, List.pairwise_append, List.map_cons, List.map_nil, List.cons_append, List.nil_append] at hs
  refine ⟨⟨h.out, h.inv, h.index, ?_, ?_, ?_, h.imgs, fun hL => by simpa [runPlaces] using h.links hL, by simpa [runPlaces] using h.clean⟩, ?_⟩
  · intro j pg hj
    have := h.page j pg hj
    rw [seenOn_append, seenOn_snoc] at this
    rw [seenOn_append]
    simpa using this
  · intro r hr
    exact h.bound r (by simp only [List.mem_append] at hr ⊢; tauto)
  · rw [List.map_append, List.pairwise_append]
    exact ⟨hs.1, (List.pairwise_cons.1 hs.2.1).2, fun a ha b hb => hs.2.2 a ha b (List.mem_cons_of_mem _ hb)⟩
  · intro r hr
    exact (List.pairwise_cons.1 hs.2.1).1 _ (List.mem_map_of_mem hr)

/-- nothing is added to the stream of the current page, whose width may be another -/
theorem DrawnDoc.change {W : Rat → Prop} {s : PdfD} {runs : List Painted} {pg pg' : Page} (h : DrawnDoc E L W s runs) (hp : s.cur = some pg)
    (h1 : pg'.objId = pg.objId) (h2 : pg'.annots = pg.annots) (h3 : pg'.core.stream = pg.core.stream) (h4 : pg'.core.next = pg.core.next)
    (h5 : pg'.xres = pg.xres) (h6 : W pg'.contentWidth) (h7 : pg'.core.Ok) (h8 : pg'.width = pg.width ∧ pg'.height = pg.height) (h9 : pg'.fonts = pg.fonts) :
    DrawnDoc E L W { s with doc := s.doc.onPage fun _ => pg' } runs ∧ Later s { s with doc := s.doc.onPage fun _ => pg' } := by
  have hcur : s.doc.pages[s.doc.pageIndex]? = some pg := hp
  have hat : (s.doc.onPage fun _ => pg').pages[s.doc.pageIndex]? = some pg' := modify_at hcur _
  have hoth : ∀ i, i ≠ s.doc.pageIndex → (s.doc.onPage fun _ => pg').pages[i]? = s.doc.pages[i]? := fun i hi => modify_other hi
  have hlen : (s.doc.onPage fun _ => pg').pages.length = s.doc.pages.length := by simp [PdfT.onPage]
  have hidx := h.index (by intro e; rw [e] at hcur; simp at hcur)
  refine ⟨⟨h.out.hush (Hush.setPage hp h1 h2), ⟨h.inv.wf, ?_⟩, fun _ => by rw [hlen]; exact hidx, ?_, ?_, h.sorted, h.imgs, fun hL => ?_, ?_⟩, ⟨fun _ _ h => h, ?_, rfl⟩⟩
  · intro i q hi
    by_cases hj : i = s.doc.pageIndex
    · subst hj
      rw [hat] at hi
      cases hi
      exact h7
    · rw [hoth i hj] at hi
      exact h.inv.pages i q hi
  · intro i q hi
    by_cases hj : i = s.doc.pageIndex
    · subst hj
      rw [hat] at hi
      cases hi
      exact ⟨pageReads_same (h.page _ _ hcur).1 h3 h4, h6⟩
    · rw [hoth i hj] at hi
      exact h.page i q hi
  · intro r hr
    rw [hlen]
    exact h.bound r hr
  · obtain ⟨sizes, hi⟩ := h.links hL
    exact ⟨sizes, hi.setPage hp h1 h2 h8.1 h8.2⟩
  · exact h.clean.same rfl fun hc => hc.setPage hp h2 h5 h9
  · intro i q hi
    by_cases hj : i = s.doc.pageIndex
    · subst hj
      rw [hcur] at hi
      cases hi
      exact ⟨pg', [], hat, by rw [h5, List.append_nil]⟩
    · exact ⟨q, [], by rw [← hi]; exact hoth i hj, by simp⟩

theorem DrawnDoc.goToBeginning {s : PdfD} {runs : List Painted} (h : DrawnDoc E L anyW s runs) (hp : s.doc.pages ≠ []) :
    DrawnDoc E L anyW { s with doc := s.doc.onPage Page.goToBeginning } runs ∧ Later s { s with doc := s.doc.onPage Page.goToBeginning } := by
  obtain ⟨q, hq⟩ : ∃ q, s.cur = some q := by
    have := h.index hp
    exact ⟨_, List.getElem?_eq_getElem (show s.doc.pageIndex < s.doc.pages.length by omega)⟩
  have hok := h.inv.pages _ _ hq
  have e : (s.doc.onPage fun _ => q.goToBeginning) = s.doc.onPage Page.goToBeginning := by
    unfold PdfT.onPage
    congr 1
    apply List.ext_getElem?
    intro j
    by_cases hj : j = s.doc.pageIndex
    · subst hj
      rw [modify_at hq, modify_at hq]
    · rw [modify_other hj, modify_other hj]
  have := h.change hq (pg' := q.goToBeginning) rfl rfl rfl rfl rfl trivial ⟨hok.1, hok.2, hok.3, hok.4⟩ ⟨rfl, rfl⟩ rfl
  rwa [e] at this

/-! ### A page -/

/-- a rectangle that is where it was asked to be, on a page of height `H` -/
structure RectAt (H : Rat) (x y h : Option Rat) (rect : Rat × Rat × Rat × Rat) : Prop where
  x : ∀ v, x = some v → rect.1 = v
  y : ∀ v, y = some v → rect.2.1 = H - v
  h : ∀ v, h = some v → rect.2.2.2 = v

/-- `_content`, in a rectangle whose width is one of `W` -/
theorem drawn_place {σ : Type} {I : σ → Prop} {run : σ → Rat → Rat → Rat → Rat → CRun (FlowOut σ)} {W : Rat → Prop} (hT : T.Ok) (H : FlowSafe T refOf L W I run)
    {p : FProc} {s : PdfD} {c : σ} {runs : List Painted} (hs : DrawnDoc E L anyW s runs) (hc : I c) {x y h : Option Rat} {w : Rat} (hw : W w)
    {r : (FProc × PdfD) × FlowOut σ} (hp : s.putFlow E T.fmt.toNumFmt run p c x y (some w) h = .ok r) :
    ∃ (rect : Rat × Rat × Rat × Rat) (rs : List Painted), (rect.2.2.1 = w ∧ ∀ pg, s.cur = some pg → RectAt pg.height x y h rect) ∧ run c rect.1 rect.2.1 rect.2.2.1 rect.2.2.2 = .ok r.2 ∧
      List.Forall₂ (PieceShows T r.1.2) r.2.marks rs ∧ DrawnDoc E L anyW r.1.2 (runs ++ rs) ∧ Later s r.1.2 ∧ GraphicsShown T (r.2.fills ++ r.2.lines) rs := by
  unfold PdfD.putFlow at hp
  split at hp
  · cases hp
  · rename_i page hpage
    simp only at hp
    obtain ⟨b1, b2⟩ := hs.place hpage x y (some w) h
    have hw' : (page.positionAndSize x y (some w) h).1.2.2.1 = w := rfl
    have hat : RectAt page.height x y h (page.positionAndSize x y (some w) h).1 := by
      refine ⟨?_, ?_, ?_⟩
      · intro v e
        subst e
        cases y <;> rfl
      · intro v e
        subst e
        rfl
      · intro v e
        subst e
        rfl
    generalize (page.positionAndSize x y (some w) h) = q at hp b1 b2 hw' hat
    cases h1 : run c q.1.1 q.1.2.1 q.1.2.2.1 q.1.2.2.2 with
    | error e => rw [h1] at hp; cases hp
    | ok o =>
      rw [h1] at hp
      simp only at hp
      split at hp
      · cases hp
      · rename_i d hd
        cases hp
        obtain ⟨a1, a2⟩ := H _ _ _ _ _ _ (by rw [hw']; exact hw) hc h1
        obtain ⟨rs, c1, c2, c3, c4⟩ := drawn_box hT b1 a1 (p' := d.1) (s' := d.2) hd
        refine ⟨q.1, rs, ⟨hw', fun pg hpg => ?_⟩, h1, c1, c2, b2.trans c3, c4⟩
        rw [show page = pg from Option.some.inj (hpage.symm.trans hpg)] at hat
        exact hat

/-- a running section that can be shown in its rectangle -/
def RunFits (T : TextEnv) (refOf : Str → Str → Str) (shows : Str → DocBox) (b : RunBox) : Prop :=
  ∃ w, b.width = some w ∧ BoxFit (docNest T refOf (shows b.name).depth) (shows b.name).els [w]

/-- what a running section puts on its page of height `H` -/
def RunDrawn (T : TextEnv) (fuel : Nat) (H : Rat) (s : PdfD) (box : DocBox) (b : RunBox) (fin : Bool) (rs : List Painted) : Prop :=
  ∃ (rect : Rat × Rat × Rat × Rat) (o : FlowOut (CContent (DocNest box.depth) (TagPart DocPart) LineLook (PDFColor Rat))), (some rect.2.2.1 = b.width ∧ RectAt H b.x b.y b.height rect) ∧
    contentFlow T fuel box (CContent.new 1 box.gap box.els) rect.1 rect.2.1 rect.2.2.1 rect.2.2.2 = .ok o ∧
    List.Forall₂ (PieceShows T s) o.marks rs ∧ fin = o.finished ∧ GraphicsShown T (o.fills ++ o.lines) rs

/-- those of a page -/
inductive RunsDrawn (T : TextEnv) (fuel : Nat) (H : Rat) (s : PdfD) (shows : Str → DocBox) : List RunBox → List Bool → List (List Painted) → Prop
  | nil : RunsDrawn T fuel H s shows [] [] []
  | cons {b : RunBox} {l : List RunBox} {fin : Bool} {fs : List Bool} {rs : List Painted} {rss : List (List Painted)} :
      RunDrawn T fuel H s (shows b.name) b fin rs → RunsDrawn T fuel H s shows l fs rss → RunsDrawn T fuel H s shows (b :: l) (fin :: fs) (rs :: rss)

theorem RunsDrawn.later {fuel : Nat} {H : Rat} {s s' : PdfD} (hl : Later s s') {shows : Str → DocBox} {l : List RunBox} {fs : List Bool} {rss : List (List Painted)}
    (h : RunsDrawn T fuel H s shows l fs rss) : RunsDrawn T fuel H s' shows l fs rss := by
  induction h with
  | nil => exact .nil
  | cons h _ ih =>
    obtain ⟨rect, o, h1, h2, h3, h4⟩ := h
    exact .cons ⟨rect, o, h1, h2, h3.imp fun _ _ h => h.later hl, h4⟩ ih

/-- the pieces of a page: those of its running sections, and those of its section -/
abbrev PageGroup := List (List Painted) × List Painted

def PageGroup.all (g : PageGroup) : List Painted := g.1.flatten ++ g.2

/-- the sizes of the pages -/
def PdfD.sizes (s : PdfD) : List (Rat × Rat) := s.doc.pages.map fun pg => (pg.width, pg.height)

theorem sizes_length {s s' : PdfD} (h : s'.sizes = s.sizes) : s'.doc.pages.length = s.doc.pages.length := by
  have := congrArg List.length h
  simpa [PdfD.sizes] using this

theorem Did.sizes {s s' : PdfD} {pg pg' : Page} (h : Did s s' pg pg') : s'.sizes = s.sizes := by
  unfold PdfD.sizes
  apply List.ext_getElem?
  intro i
  rw [List.getElem?_map, List.getElem?_map]
  by_cases hj : i = s.doc.pageIndex
  · subst hj
    have e := h.before
    have e' := h.after
    unfold PdfD.cur at e e'
    rw [h.index] at e'
    rw [e, e']
    simp only [Option.map_some, h.size.1, h.size.2.1]
  · have e := congrArg (Option.map fun c : PCore => (c.w, c.h)) (h.others i hj)
    simpa only [Option.map_map, Function.comp_def, Page.core] using e

theorem onPage_sizes {s : PdfD} {f : Page → Page} (h : ∀ pg, s.doc.pages[s.doc.pageIndex]? = some pg → (f pg).width = pg.width ∧ (f pg).height = pg.height) :
    ({ s with doc := s.doc.onPage f } : PdfD).sizes = s.sizes := by
  unfold PdfD.sizes PdfT.onPage
  apply List.ext_getElem?
  intro i
  rw [List.getElem?_map, List.getElem?_map]
  by_cases hj : i = s.doc.pageIndex
  · subst hj
    cases hp : s.doc.pages[s.doc.pageIndex]? with
    | none => simp only; rw [List.getElem?_modify]; simp [hp]
    | some pg => simp only; rw [modify_at hp]; simp only [Option.map_some, h pg hp]
  · simp only; rw [modify_other hj]

theorem addBox_sizes (hT : T.Ok) {p : FProc} {s : PdfD} {o : BoxOut} {w : Rat} {m : Str} {r : FProc × PdfD} (hi : s.Inv)
    (h : s.addBox E T.fmt.toNumFmt p o w m = .ok r) : r.2.sizes = s.sizes := by
  obtain ⟨pg, pg', -, -, hd, -⟩ := box_did hT.fmt.1.1 hi (p' := r.1) (s' := r.2) h
  exact hd.sizes

theorem putFlow_sizes {σ : Type} {run : σ → Rat → Rat → Rat → Rat → CRun (FlowOut σ)} (hT : T.Ok) {p : FProc} {s : PdfD} {c : σ} {runs : List Painted}
    (hs : DrawnDoc E L anyW s runs) {x y w h : Option Rat} {r : (FProc × PdfD) × FlowOut σ} (hp : s.putFlow E T.fmt.toNumFmt run p c x y w h = .ok r) :
    r.1.2.sizes = s.sizes := by
  unfold PdfD.putFlow at hp
  split at hp
  · cases hp
  · rename_i page hpage
    simp only at hp
    split at hp
    · cases hp
    · split at hp
      · cases hp
      · rename_i d hd
        cases hp
        rw [addBox_sizes hT (hs.place hpage x y w h).1.inv hd]
        apply onPage_sizes
        intro pg hpg
        rw [hpage] at hpg
        cases hpg
        obtain ⟨-, -, -, -, a5, -⟩ := positionAndSize_same page x y w h
        exact ⟨congrArg Sheet.w a5, congrArg Sheet.h a5⟩

theorem DrawnDoc.height {s : PdfD} {runs : List Painted} (hs : DrawnDoc E L anyW s runs) {H : Rat} (hH : ∃ ws w, s.sizes = ws ++ [(w, H)]) :
    ∃ pg, s.cur = some pg ∧ pg.height = H := by
  obtain ⟨ws, w, e⟩ := hH
  have hlen : s.doc.pages.length = ws.length + 1 := by
    have := congrArg List.length e
    simpa [PdfD.sizes] using this
  have hidx := hs.index (by intro h; rw [h] at hlen; simp at hlen)
  have hlt : s.doc.pageIndex < s.doc.pages.length := by omega
  refine ⟨s.doc.pages[s.doc.pageIndex], List.getElem?_eq_getElem hlt, ?_⟩
  have := congrArg (fun l => l[s.doc.pageIndex]?) e
  simp only [PdfD.sizes, List.getElem?_map, List.getElem?_eq_getElem hlt, Option.map_some] at this
  rw [List.getElem?_append_right (by omega), show s.doc.pageIndex - ws.length = 0 by omega] at this
  simp only [List.getElem?_cons_zero, Option.some.injEq, Prod.mk.injEq] at this
  exact this.2

theorem drawn_running (hT : T.Ok) {fuel : Nat} {H : Rat} {shows : Str → DocBox} : ∀ (l : List RunBox) {p : FProc} {s : PdfD} {runs : List Painted} {q : (FProc × PdfD) × List Bool},
    (∀ b ∈ l, RunFits T refOf shows b) → (∀ b ∈ l, ∀ im, (AddOp.content (shows b.name)).HasImage im → L im) → DrawnDoc E L anyW s runs →
    (∃ ws w, s.sizes = ws ++ [(w, H)]) → s.putRunning E T fuel shows l p = .ok q →
    ∃ rss, RunsDrawn T fuel H q.1.2 shows l q.2 rss ∧ DrawnDoc E L anyW q.1.2 (runs ++ rss.flatten) ∧ Later s q.1.2 := by
  intro l
  induction l with
  | nil =>
    intro p s runs q _ _ hs _ h
    cases h
    exact ⟨[], .nil, by simpa using hs, .refl _⟩
  | cons b l ih =>
    intro p s runs q hfit hL hs hH h
    rw [PdfD.putRunning] at h
    split at h
    · cases h
    · rename_i r h1
      split at h
      · cases h
      · rename_i q' h2
        cases h
        have hsz := putFlow_sizes hT hs h1
        obtain ⟨w, e, hb⟩ := hfit b (by simp)
        rw [e] at h1
        obtain ⟨rect, rs, ⟨a1, a1'⟩, a2, a3, a4, a5, a6⟩ := drawn_place hT (content_safe (fuel := fuel) hb fun im hi => hL b (by simp) im ((box_images _ im).1 hi)) hs
          ⟨rfl, [], [], by simp, rfl⟩ (by simp) h1
        obtain ⟨rss, b1, b2, b3⟩ := ih (fun b h => hfit b (by simp [h])) (fun b h => hL b (by simp [h])) a4 (by rw [hsz]; exact hH) h2
        obtain ⟨pg, hpg, hpH⟩ := hs.height hH
        exact ⟨rs :: rss, .cons ⟨rect, r.2, ⟨by rw [a1, e], hpH ▸ a1' pg hpg⟩, a2, a3.imp fun _ _ h => h.later b3, rfl, a6⟩ b1, by simpa using b2, a5.trans b3⟩

theorem running_sizes (hT : T.Ok) {fuel : Nat} {shows : Str → DocBox} : ∀ (l : List RunBox) {p : FProc} {s : PdfD} {runs : List Painted} {q : (FProc × PdfD) × List Bool},
    (∀ b ∈ l, RunFits T refOf shows b) → (∀ b ∈ l, ∀ im, (AddOp.content (shows b.name)).HasImage im → L im) → DrawnDoc E L anyW s runs →
    s.putRunning E T fuel shows l p = .ok q → q.1.2.sizes = s.sizes := by
  intro l
  induction l with
  | nil =>
    intro p s runs q _ _ hs h
    cases h
    rfl
  | cons b l ih =>
    intro p s runs q hfit hL hs h
    rw [PdfD.putRunning] at h
    split at h
    · cases h
    · rename_i r h1
      split at h
      · cases h
      · rename_i q' h2
        cases h
        have hsz := putFlow_sizes hT hs h1
        obtain ⟨w, e, hb⟩ := hfit b (by simp)
        rw [e] at h1
        obtain ⟨rect, rs, -, a2, a3, a4, a5⟩ := drawn_place hT (content_safe (fuel := fuel) hb fun im hi => hL b (by simp) im ((box_images _ im).1 hi)) hs
          ⟨rfl, [], [], by simp, rfl⟩ (by simp) h1
        rw [ih (fun b h => hfit b (by simp [h])) (fun b h => hL b (by simp [h])) a4 h2, hsz]

theorem nextPage_sizes (s : PdfD) (k : Sheet) : (s.nextPage k).sizes = s.sizes ++ [(k.w, k.h)] := by
  simp [PdfD.sizes, PdfD.nextPage, PdfT.addPage, Base.addDict, Base.add, Page.new, Page.goToBeginning]

/-- a document whose pages show groups of pieces -/
structure BookDrawn (E : PdfEnv) (L : PImg → Prop) (s : PdfD) (groups : List PageGroup) : Prop where
  drawn : DrawnDoc E L anyW s (groups.flatMap PageGroup.all)
  length : groups.length = s.doc.pages.length
  pages : ∀ (i : Nat) g, groups[i]? = some g → ∀ r ∈ g.all, r.page = i

/-- a page whose running sections can be shown, the images of which are among `L` -/
structure PlanFits (T : TextEnv) (refOf : Str → Str → Str) (L : PImg → Prop) (B : Book) (Ws : List Rat) (pl : PagePlan) : Prop where
  width : pl.sheet.w - pl.sheet.right - pl.sheet.left ∈ Ws
  running : ∀ b ∈ pl.boxes, RunFits T refOf (fun n => B.shows n pl.number) b
  images : ∀ b ∈ pl.boxes, ∀ im, (AddOp.content (B.shows b.name pl.number)).HasImage im → L im

section
variable {fuel : Nat} {B : Book} {Ws : List Rat} {style : SecStyle} {running : List Str} {b : DocBox}

/-- what a section puts on one page -/
def BodyOn (T : TextEnv) (fuel : Nat) (Ws : List Rat) (s : PdfD) (b : DocBox) (k : Sheet) (rs : List Painted) : Prop :=
  ∃ (c : CContent (DocNest b.depth) (TagPart DocPart) LineLook (PDFColor Rat)) (o : FlowOut (CContent (DocNest b.depth) (TagPart DocPart) LineLook (PDFColor Rat))),
    BoxState T fuel b Ws c ∧ contentFlow T fuel b c k.left (k.h - k.top) (k.w - k.right - k.left) (k.h - k.top - k.bottom) = .ok o ∧
    List.Forall₂ (PieceShows T s) o.marks rs ∧ GraphicsShown T (o.fills ++ o.lines) rs

theorem BodyOn.later {s s' : PdfD} (hl : Later s s') {k : Sheet} {rs : List Painted} (h : BodyOn T fuel Ws s b k rs) : BodyOn T fuel Ws s' b k rs := by
  obtain ⟨c, o, h1, h2, h3, h4⟩ := h
  exact ⟨c, o, h1, h2, h3.imp fun _ _ h => h.later hl, h4⟩

/-- a page of a section -/
theorem book_page (hT : T.Ok) (hb : BoxFit (docNest T refOf b.depth) b.els Ws) (hL : ∀ im, (AddOp.content b).HasImage im → L im)
    {s s' : BookSt} {groups : List PageGroup} (hs : BookDrawn E L s.pdf groups) {c : CContent (DocNest b.depth) (TagPart DocPart) LineLook (PDFColor Rat)}
    (hc : BoxState T fuel b Ws c) {o : FlowOut (CContent (DocNest b.depth) (TagPart DocPart) LineLook (PDFColor Rat))}
    (h : bookPage E T fuel B style running b s c = .ok (s', o)) :
    ∃ plan fits, s'.plans = s.plans ++ [⟨plan, fits, o.finished⟩] ∧ (PlanFits T refOf L B Ws plan →
      ∃ (g : PageGroup) (rect : Rat × Rat × Rat × Rat), rect.2.2.1 ∈ Ws ∧ contentFlow T fuel b c rect.1 rect.2.1 rect.2.2.1 rect.2.2.2 = .ok o ∧ (o.finished = false → BoxState T fuel b Ws o.next) ∧
        RunsDrawn T fuel plan.sheet.h s'.pdf (fun n => B.shows n plan.number) plan.boxes fits g.1 ∧ BodyOn T fuel Ws s'.pdf b plan.sheet g.2 ∧ List.Forall₂ (PieceShows T s'.pdf) o.marks g.2 ∧
        BookDrawn E L s'.pdf (groups ++ [g]) ∧ Later s.pdf s'.pdf ∧ s'.pdf.sizes = s.pdf.sizes ++ [(plan.sheet.w, plan.sheet.h)]) := by
  unfold bookPage at h
  split at h
  · cases h
  · rename_i setup plan hplan
    split at h
    · cases h
    · rename_i p1 d1 fits h1
      split at h
      · cases h
      · rename_i p2 d2 o' h2
        cases h
        refine ⟨plan, fits, rfl, fun hp => ?_⟩
        simp only
        obtain ⟨n1, n2⟩ := drawn_nextPage hs.drawn (k := plan.sheet) trivial
        have hz0 := nextPage_sizes s.pdf plan.sheet
        have hlen0 : (s.pdf.nextPage plan.sheet).doc.pages.length = s.pdf.doc.pages.length + 1 := by
          have := congrArg List.length hz0
          simpa [PdfD.sizes] using this
        have hne0 : (s.pdf.nextPage plan.sheet).doc.pages ≠ [] := by
          intro e
          rw [e] at hlen0
          simp at hlen0
        have hidx0 := n1.index hne0
        have m1 := n1.mark hne0
        obtain ⟨rss, a1, a2, a3⟩ := drawn_running hT plan.boxes hp.running hp.images m1 ⟨_, _, hz0⟩ h1
        have hz1 : d1.sizes = (s.pdf.nextPage plan.sheet).sizes := running_sizes hT plan.boxes hp.running hp.images m1 h1
        have hlen1 := sizes_length hz1
        simp only at a1 a2 a3
        have hne1 : d1.doc.pages ≠ [] := by
          intro e
          rw [e] at hlen1
          simp at hlen1
          omega
        obtain ⟨g1, g2⟩ := a2.goToBeginning hne1
        have hz2 : ({ d1 with doc := d1.doc.onPage Page.goToBeginning } : PdfD).sizes = d1.sizes := onPage_sizes fun _ _ => ⟨rfl, rfl⟩
        unfold PdfD.putBody at h2
        split at h2
        · cases h2
        · rename_i o1 hrun
          split at h2
          · cases h2
          · split at h2
            · cases h2
            · rename_i d hd
              cases h2
              obtain ⟨b1, b2⟩ := content_safe (fuel := fuel) hb (fun im hi => hL im ((box_images _ im).1 hi)) c _ _ _ _ _ hp.width hc hrun
              obtain ⟨rs, c1, c2, c3, c4⟩ := drawn_box hT g1 b1 (p' := p2) (s' := d2) hd
              have hz3 : d2.sizes = _ := addBox_sizes hT g1.inv hd
              have hlen : d2.doc.pages.length = s.pdf.doc.pages.length + 1 := by
                rw [sizes_length hz3, sizes_length hz2, hlen1, hlen0]
              rw [List.append_assoc] at c2
              obtain ⟨e1, e2⟩ := c2.unmark
              refine ⟨(rss, rs), (_, _, _, _), hp.width, hrun, b2, (a1.later g2).later c3, ⟨c, _, hc, hrun, c1, c4⟩, c1, ⟨?_, ?_, ?_⟩, ((n2.trans a3).trans g2).trans c3, ?_⟩
              · simpa [PageGroup.all] using e1
              · rw [List.length_append, hs.length, hlen]
                rfl
              · intro i g hi r hr
                by_cases hlt : i < groups.length
                · rw [List.getElem?_append_left hlt] at hi
                  exact hs.pages i g hi r hr
                · rw [List.getElem?_append_right (by omega)] at hi
                  have e : i - groups.length = 0 := by
                    by_contra hc
                    rw [List.getElem?_eq_none (by simp; omega)] at hi
                    cases hi
                  rw [e] at hi
                  simp only [List.getElem?_cons_zero, Option.some.injEq] at hi
                  subst hi
                  have k1 := e2 r hr
                  have k2 := e1.bound r (List.mem_append.2 (Or.inr hr))
                  have k3 := hs.length
                  omega
              · rw [hz3, hz2, hz1, hz0]

theorem bookPage_plans {s s' : BookSt} {c : CContent (DocNest b.depth) (TagPart DocPart) LineLook (PDFColor Rat)}
    {o : FlowOut (CContent (DocNest b.depth) (TagPart DocPart) LineLook (PDFColor Rat))}
    (h : bookPage E T fuel B style running b s c = .ok (s', o)) : s.plans <+: s'.plans := by
  unfold bookPage at h
  split at h
  · cases h
  · split at h
    · cases h
    · split at h
      · cases h
      · cases h
        exact List.prefix_append _ _

theorem bookPages_plans : ∀ (n : Nat) {s s' : BookSt} {c : CContent (DocNest b.depth) (TagPart DocPart) LineLook (PDFColor Rat)},
    bookPages E T fuel B style running b n s c = .ok s' → s.plans <+: s'.plans := by
  intro n
  induction n with
  | zero => intro s s' c h; cases h
  | succ n ih =>
    intro s s' c h
    rw [bookPages] at h
    split at h
    · cases h
    · rename_i s1 o h1
      split at h
      · cases h
        exact bookPage_plans h1
      · exact (bookPage_plans h1).trans (ih h)

/-- the running sections of pages -/
inductive PlansDrawn (T : TextEnv) (fuel : Nat) (B : Book) (s : PdfD) : List BookPage → List PageGroup → Prop
  | nil : PlansDrawn T fuel B s [] []
  | cons {p : BookPage} {l : List BookPage} {g : PageGroup} {gs : List PageGroup} :
      RunsDrawn T fuel p.plan.sheet.h s (fun n => B.shows n p.plan.number) p.plan.boxes p.fits g.1 → PlansDrawn T fuel B s l gs → PlansDrawn T fuel B s (p :: l) (g :: gs)

theorem PlansDrawn.later {s s' : PdfD} (hl : Later s s') {l : List BookPage} {gs : List PageGroup} (h : PlansDrawn T fuel B s l gs) :
    PlansDrawn T fuel B s' l gs := by
  induction h with
  | nil => exact .nil
  | cons h _ ih => exact .cons (h.later hl) ih

theorem PlansDrawn.append {s : PdfD} {l l' : List BookPage} {gs gs' : List PageGroup} (h : PlansDrawn T fuel B s l gs) (h' : PlansDrawn T fuel B s l' gs') :
    PlansDrawn T fuel B s (l ++ l') (gs ++ gs') := by
  induction h with
  | nil => exact h'
  | cons h _ ih => exact .cons h ih

/-- what a section puts on its pages -/
def SecDrawn (T : TextEnv) (fuel : Nat) (Ws : List Rat) (s : PdfD) (b : DocBox) (gs : List PageGroup) : Prop := gs ≠ [] ∧
  CallDrawn T fuel Ws s (.content b) (gs.flatMap Prod.snd)

theorem SecDrawn.later {s s' : PdfD} (hl : Later s s') {gs : List PageGroup} (h : SecDrawn T fuel Ws s b gs) : SecDrawn T fuel Ws s' b gs := ⟨h.1, h.2.later hl⟩

/-- the pages of a section -/
theorem book_pages (hT : T.Ok) (hb : BoxFit (docNest T refOf b.depth) b.els Ws) (hL : ∀ im, (AddOp.content b).HasImage im → L im) : ∀ (n : Nat)
    {s s' : BookSt} {groups : List PageGroup} {c : CContent (DocNest b.depth) (TagPart DocPart) LineLook (PDFColor Rat)},
    BookDrawn E L s.pdf groups → BoxState T fuel b Ws c → bookPages E T fuel B style running b n s c = .ok s' →
    (∀ pl ∈ s'.plans, PlanFits T refOf L B Ws pl.plan) →
    ∃ gs pls rects outs, gs ≠ [] ∧ pls.map BookPage.last = List.replicate (gs.length - 1) false ++ [true] ∧ FlowChain (contentFlow T fuel b) c rects outs ∧ (∀ r ∈ rects, r.2.2.1 ∈ Ws) ∧ (∃ o, outs.getLast? = some o ∧ o.finished = true) ∧
      List.Forall₂ (PieceShows T s'.pdf) (outs.flatMap FlowOut.marks) (gs.flatMap Prod.snd) ∧ s'.plans = s.plans ++ pls ∧ (PlansDrawn T fuel B s'.pdf pls gs ∧
      List.Forall₂ (fun p (g : PageGroup) => BodyOn T fuel Ws s'.pdf b p.plan.sheet g.2) pls gs) ∧
      BookDrawn E L s'.pdf (groups ++ gs) ∧ Later s.pdf s'.pdf ∧ s'.pdf.sizes = s.pdf.sizes ++ pls.map fun p => (p.plan.sheet.w, p.plan.sheet.h) := by
  intro n
  induction n with
  | zero => intro s s' groups c _ _ h; cases h
  | succ n ih =>
    intro s s' groups c hs hc h hpl
    rw [bookPages] at h
    split at h
    · cases h
    · rename_i s1 o h1
      obtain ⟨plan, fits, e1, e2⟩ := book_page hT hb hL hs hc h1
      split at h
      · rename_i hfin
        cases h
        obtain ⟨g, rect, a1, a2, a3, a4, a4', a5, a6, a7, a8⟩ := e2 (hpl ⟨plan, fits, o.finished⟩ (by rw [e1]; simp))
        refine ⟨[g], [⟨plan, fits, o.finished⟩], [rect], [o], by simp, by simp [hfin], ⟨a2, by simp, trivial⟩, by simpa using a1, ⟨o, rfl, hfin⟩, by simpa using a5, e1, ⟨.cons a4 .nil, .cons a4' .nil⟩, a6, a7, a8⟩
      · rename_i hfin
        have hfin : o.finished = false := by simpa using hfin
        obtain ⟨t, ht⟩ := bookPages_plans n h
        obtain ⟨g, rect, a1, a2, a3, a4, a4', a5, a6, a7, a8⟩ := e2 (hpl ⟨plan, fits, o.finished⟩ (by rw [← ht, e1]; simp))
        obtain ⟨gs, pls, rects, outs, b0, b0', b1, b2, ⟨o', b3, b3'⟩, b4, b5, ⟨b6, b6'⟩, b7, b8, b9⟩ := ih a6 (a3 hfin) h hpl
        refine ⟨g :: gs, ⟨plan, fits, o.finished⟩ :: pls, rect :: rects, o :: outs, by simp, ?_, ⟨a2, fun _ => hfin, b1⟩, ?_, ⟨o', ?_, b3'⟩, ?_, ?_, ⟨.cons (a4.later b8) b6, .cons (a4'.later b8) b6'⟩, by simpa using b7,
          a7.trans b8, ?_⟩
        · rw [List.map_cons, b0']
          obtain ⟨m, hm⟩ := Nat.exists_eq_succ_of_ne_zero (fun e => b0 (List.length_eq_zero_iff.1 e))
          simp [hfin, hm, List.replicate_succ]
        · intro r hr
          rcases List.mem_cons.1 hr with rfl | hr
          · exact a1
          · exact b2 r hr
        · cases outs with
          | nil => simp at b3
          | cons o1 outs => rw [List.getLast?_cons_cons]; exact b3
        · rw [List.flatMap_cons, List.flatMap_cons]
          exact List.rel_append (a5.imp fun _ _ h => h.later b8) b4
        · rw [b5, e1]
          simp
        · rw [b9, a8]
          simp

theorem bookSection_plans {s s' : BookSt} {d : BookSec} (h : bookSection E T fuel B s d = .ok s') : s.plans <+: s'.plans := by
  unfold bookSection at h
  simp only at h
  have k := bookPages_plans _ h
  exact k

/-- a section -/
theorem book_section (hT : T.Ok) {d : BookSec} (hb : BoxFit (docNest T refOf d.box.depth) d.box.els Ws) (hL : ∀ im, (AddOp.content d.box).HasImage im → L im)
    {s s' : BookSt} {groups : List PageGroup} (hs : BookDrawn E L s.pdf groups) (h : bookSection E T fuel B s d = .ok s')
    (hpl : ∀ pl ∈ s'.plans, PlanFits T refOf L B Ws pl.plan) :
    ∃ gs pls, SecDrawn T fuel Ws s'.pdf d.box gs ∧ pls.map BookPage.last = List.replicate (gs.length - 1) false ++ [true] ∧ s'.plans = s.plans ++ pls ∧ (PlansDrawn T fuel B s'.pdf pls gs ∧
      List.Forall₂ (fun p (g : PageGroup) => BodyOn T fuel Ws s'.pdf d.box p.plan.sheet g.2) pls gs) ∧
      BookDrawn E L s'.pdf (groups ++ gs) ∧ Later s.pdf s'.pdf ∧ s'.pdf.sizes = s.pdf.sizes ++ pls.map fun p => (p.plan.sheet.w, p.plan.sheet.h) := by
  unfold bookSection at h
  simp only at h
  generalize e0 : (BookSt.mk s.pdf s.proc s.setup (if (B.style.update d.style).reset.getD false = true then -(s.pdf.doc.pages.length : Int) else
    (B.style.update d.style).offset.getD s.offset) ((B.style.update d.style).roman.getD s.roman) s.plans) = s0 at h
  obtain ⟨e1, e2⟩ : s0.pdf = s.pdf ∧ s0.plans = s.plans := by rw [← e0]; exact ⟨rfl, rfl⟩
  rw [← e1] at hs
  rw [← e1, ← e2]
  obtain ⟨gs, pls, rects, outs, b0, b0', b1, b2, b3, b4, b5, b6, b7, b8, b9⟩ := book_pages hT hb hL fuel hs ⟨rfl, [], [], by simp, rfl⟩ h hpl
  exact ⟨gs, pls, ⟨b0, rects, outs, b1, b2, b3, b4⟩, b0', b5, b6, b7, b8, b9⟩

theorem bookRun_plans : ∀ (l : List BookSec) {s s' : BookSt}, bookRun E T fuel B l s = .ok s' → s.plans <+: s'.plans := by
  intro l
  induction l with
  | nil => intro s s' h; cases h; exact List.prefix_rfl
  | cons d l ih =>
    intro s s' h
    rw [bookRun] at h
    split at h
    · cases h
    · rename_i s1 h1
      exact (bookSection_plans h1).trans (ih h)

/-- the sections -/
theorem book_run (hT : T.Ok) : ∀ (l : List BookSec) {s s' : BookSt} {groups : List PageGroup},
    (∀ d ∈ l, BoxFit (docNest T refOf d.box.depth) d.box.els Ws) → (∀ d ∈ l, ∀ im, (AddOp.content d.box).HasImage im → L im) →
    BookDrawn E L s.pdf groups → bookRun E T fuel B l s = .ok s' → (∀ pl ∈ s'.plans, PlanFits T refOf L B Ws pl.plan) →
    ∃ gss pls, List.Forall₂ (fun (d : BookSec) gs => SecDrawn T fuel Ws s'.pdf d.box gs) l gss ∧
      pls.map BookPage.last = (gss.flatMap fun gs => List.replicate (gs.length - 1) false ++ [true]) ∧ s'.plans = s.plans ++ pls ∧ (PlansDrawn T fuel B s'.pdf pls gss.flatten ∧
      List.Forall₂ (fun p (g : PageGroup) => ∃ d ∈ l, BodyOn T fuel Ws s'.pdf d.box p.plan.sheet g.2) pls gss.flatten) ∧
      BookDrawn E L s'.pdf (groups ++ gss.flatten) ∧ Later s.pdf s'.pdf ∧ s'.pdf.sizes = s.pdf.sizes ++ pls.map fun p => (p.plan.sheet.w, p.plan.sheet.h) := by
  intro l
  induction l with
  | nil =>
    intro s s' groups _ _ hs h _
    cases h
    exact ⟨[], [], .nil, rfl, by simp, ⟨.nil, .nil⟩, by simpa using hs, .refl _, by simp⟩
  | cons d l ih =>
    intro s s' groups hb hL hs h hpl
    rw [bookRun] at h
    split at h
    · cases h
    · rename_i s1 h1
      obtain ⟨t, ht⟩ := bookRun_plans l h
      obtain ⟨gs, pls, a1, a1', a2, ⟨a3, a3'⟩, a4, a5, a6⟩ := book_section hT (hb d (by simp)) (hL d (by simp)) hs h1 (fun pl h => hpl pl (by rw [← ht]; simp [h]))
      obtain ⟨gss, pls', b1, b1', b2, ⟨b3, b3'⟩, b4, b5, b6⟩ := ih (fun d h => hb d (by simp [h])) (fun d h => hL d (by simp [h])) a4 h hpl
      refine ⟨gs :: gss, pls ++ pls', .cons (a1.later b5) b1, by rw [List.map_append, a1', b1']; simp, by rw [b2, a2]; simp, ?_, by simpa using b4, a5.trans b5, by rw [b6, a6]; simp⟩
      rw [List.flatten_cons]
      exact ⟨(a3.later b5).append b3, List.rel_append (a3'.imp fun _ _ h => ⟨d, by simp, h.later b5⟩) (b3'.imp fun _ _ ⟨d, hd, h⟩ => ⟨d, by simp [hd], h⟩)⟩

end

/-- the pieces on a page are those of its group -/
theorem seenOn_group : ∀ (groups : List PageGroup) (n : Nat), (∀ (i : Nat) g, groups[i]? = some g → ∀ r ∈ g.all, r.page = n + i) →
    ∀ i g, groups[i]? = some g → seenOn (groups.flatMap PageGroup.all) (n + i) = g.all.flatMap Painted.evs := by
  intro groups
  induction groups with
  | nil => intro n _ i g hi; simp at hi
  | cons g0 groups ih =>
    intro n h i g hi
    rw [List.flatMap_cons, seenOn_append]
    have h0 := h 0 g0 rfl
    have hrest : ∀ (i : Nat) g, groups[i]? = some g → ∀ r ∈ g.all, r.page = n + 1 + i := fun i g hi r hr => by
      rw [h (i + 1) g (by simpa using hi) r hr]; omega
    cases i with
    | zero =>
      simp only [List.getElem?_cons_zero, Option.some.injEq] at hi
      subst hi
      rw [seenOn_none (runs := groups.flatMap PageGroup.all), List.append_nil]
      · unfold seenOn
        rw [List.filter_eq_self.2]
        intro r hr
        simpa using h0 r hr
      · intro r hr
        obtain ⟨g, hg, hr⟩ := List.mem_flatMap.1 hr
        obtain ⟨j, hj, rfl⟩ := List.getElem_of_mem hg
        have := hrest j _ (List.getElem?_eq_getElem hj) r hr
        omega
    | succ i =>
      rw [seenOn_none (runs := g0.all) (by intro r hr; have := h0 r hr; omega), List.nil_append]
      have := ih (n + 1) hrest i g (by simpa using hi)
      rw [show n + 1 + i = n + (i + 1) by omega] at this
      exact this

end Verif
