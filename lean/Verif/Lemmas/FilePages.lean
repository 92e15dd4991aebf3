import Verif.Model.PdfPages
import Verif.Lemmas.FileText
import Verif.Lemmas.FileFonts
import Verif.Props.C65_Document
/-! What the pages of a document of paragraphs show. -/
namespace Verif
open Spec

/-- the stream of a page paints some things -/
def PageReads (pg : Page) (evs : List Event) : Prop :=
  (∀ c ∈ pg.stream, c.1 < pg.currentId) ∧
    ∃ str ops gs, (pg.stream.map Prod.snd).flatten = bytesOf str ∧ OpsTo str ops ∧ gs.cms = [] ∧
      exec MS.initial ops = some (⟨gs, [], [], none⟩, evs)

/-- the pieces on a page -/
def piecesOn (runs : List TextShown) (i : Nat) : List TextShown := runs.filter fun r => r.page = i

/-- what was painted on a page -/
def paintedOn (runs : List TextShown) (i : Nat) : List Event := (piecesOn runs i).flatMap TextShown.evs

/-- the size and margins of a page -/
def Page.sheet (p : Page) : Sheet := ⟨p.width, p.height, p.marginTop, p.marginBottom, p.marginLeft, p.marginRight⟩

/-- the pieces of a page are below each other, down to the cursor, and above the margin -/
structure PageStack (pg : Page) (l : List TextShown) : Prop where
  pieces : stacked (pg.height - pg.marginTop) l pg.yUp
  low : pg.marginBottom ≤ pg.height - pg.marginTop → pg.marginBottom ≤ pg.yUp
  width : pg.contentWidth = pg.width - pg.marginRight - pg.marginLeft
  height : pg.contentHeight = pg.height - pg.marginTop - pg.marginBottom

/-- the pages of a document show the runs -/
structure PagesRead (s : PdfT) (runs : List TextShown) : Prop where
  out : OutInv s
  index : s.pages ≠ [] → s.pageIndex + 1 = s.pages.length
  page : ∀ i pg, s.pages[i]? = some pg → PageReads pg (paintedOn runs i)
  bound : ∀ r ∈ runs, r.page < s.pages.length
  sorted : (runs.map TextShown.page).Pairwise (· ≤ ·)
  stack : ∀ i pg, s.pages[i]? = some pg → PageStack pg (piecesOn runs i)

theorem piecesOn_none {runs : List TextShown} {i : Nat} (h : ∀ r ∈ runs, r.page ≠ i) : piecesOn runs i = [] := by
  unfold piecesOn
  rw [List.filter_eq_nil_iff.2 (by intro r hr; simpa using h r hr)]

theorem paintedOn_none {runs : List TextShown} {i : Nat} (h : ∀ r ∈ runs, r.page ≠ i) : paintedOn runs i = [] := by
  unfold paintedOn
  rw [piecesOn_none h]
  rfl

theorem piecesOn_snoc (runs : List TextShown) (r : TextShown) (i : Nat) : piecesOn (runs ++ [r]) i = piecesOn runs i ++ if r.page = i then [r] else [] := by
  unfold piecesOn
  rw [List.filter_append]
  by_cases h : r.page = i <;> simp [h]

theorem paintedOn_snoc (runs : List TextShown) (r : TextShown) (i : Nat) :
    paintedOn (runs ++ [r]) i = paintedOn runs i ++ if r.page = i then r.evs else [] := by
  unfold paintedOn
  rw [piecesOn_snoc, List.flatMap_append]
  by_cases h : r.page = i <;> simp [h]

theorem stacked_snoc : ∀ (l : List TextShown) {t b : Rat} {r : TextShown}, stacked t l b → r.top = b → stacked t (l ++ [r]) r.bottom := by
  intro l
  induction l with
  | nil => intro t b r h hr; exact ⟨hr.trans (Eq.symm h), rfl⟩
  | cons a l ih => intro t b r h hr; exact ⟨h.1, ih h.2 hr⟩

theorem new_pages {E : PdfEnv} {p p' : FProc} {version : Str} {s : PdfT} (h : PdfT.new E p version = .ok (p', s)) : s.pages = [] := by
  have h' := h
  unfold PdfT.new at h'
  cases hf : (PdfT.init version).addOrGetFont E p (c!"Helvetica", c!"n") with
  | error e => rw [hf] at h'; cases h'
  | ok r =>
    rw [hf] at h'
    cases h'
    have := (addOrGetFont_hush (r := r.1) (p' := r.2.1) (s' := r.2.2) hf).pages
    have e : (PdfT.init version).pages = [] := rfl
    rw [e] at this
    simpa using this

theorem new_read {E : PdfEnv} {p p' : FProc} {version : Str} {s : PdfT} (h : PdfT.new E p version = .ok (p', s)) : PagesRead s [] := by
  have hp := new_pages h
  refine ⟨new_inv h, fun h => absurd hp h, ?_, by simp, by simp, ?_⟩ <;>
  · intro i pg hi
    rw [hp] at hi
    simp at hi

theorem pageReads_new (n : Nat) (w h t b l r : Rat) : PageReads (Page.new n w h t b l r) [] :=
  ⟨by simp [Page.new, Page.goToBeginning], [], [], GS.initial, rfl, OpsTo.nil, rfl, rfl⟩

theorem pageStack_new (n : Nat) (w h t b l r : Rat) : PageStack (Page.new n w h t b l r) [] :=
  ⟨rfl, fun h => h, rfl, rfl⟩

theorem addPage_read {s : PdfT} {runs : List TextShown} (h : PagesRead s runs) (w ht top bottom left right : Rat) :
    PagesRead (s.addPage w ht top bottom left right) runs := by
  have hlen : (s.addPage w ht top bottom left right).pages.length = s.pages.length + 1 := by simp [PdfT.addPage]
  have key : ∀ i pg, (s.addPage w ht top bottom left right).pages[i]? = some pg → s.pages[i]? = some pg ∨
      i = s.pages.length ∧ ∃ n, pg = Page.new n w ht top bottom left right := by
    intro i pg hi
    simp only [PdfT.addPage] at hi
    by_cases hl : i < s.pages.length
    · rw [List.getElem?_append_left hl] at hi
      exact Or.inl hi
    · rw [List.getElem?_append_right (by omega)] at hi
      have e : i - s.pages.length = 0 := by
        by_contra hc
        rw [List.getElem?_eq_none (by simp; omega)] at hi
        cases hi
      rw [e] at hi
      simp only [List.getElem?_cons_zero, Option.some.injEq] at hi
      exact Or.inr ⟨by omega, _, hi.symm⟩
  refine ⟨addPage_inv h.out _ _ _ _ _ _, fun _ => by rw [hlen]; rfl, ?_, fun r hr => by rw [hlen]; have := h.bound r hr; omega, h.sorted, ?_⟩
  · intro i pg hi
    rcases key i pg hi with hi | ⟨rfl, n, rfl⟩
    · exact h.page i pg hi
    · rw [paintedOn_none (by intro r hr; have := h.bound r hr; omega)]
      exact pageReads_new _ _ _ _ _ _ _
  · intro i pg hi
    rcases key i pg hi with hi | ⟨rfl, n, rfl⟩
    · exact h.stack i pg hi
    · rw [piecesOn_none (by intro r hr; have := h.bound r hr; omega)]
      exact pageStack_new _ _ _ _ _ _ _

theorem addPage_sheets (s : PdfT) (k : Sheet) : (s.addPage k.w k.h k.top k.bottom k.left k.right).pages.map Page.sheet = s.pages.map Page.sheet ++ [k] := by
  simp [PdfT.addPage, Page.sheet, Page.new, Page.goToBeginning]

theorem dset_fresh {κ ν : Type} [DecidableEq κ] {k : κ} {v : ν} : ∀ {l : List (κ × ν)}, (∀ e ∈ l, e.1 ≠ k) → dset k v l = l ++ [(k, v)] := by
  intro l
  induction l with
  | nil => intro _; rfl
  | cons e l ih =>
    intro h
    have h1 := h e (by simp)
    obtain ⟨a, b⟩ := e
    simp only [dset]
    rw [if_neg h1, ih fun x hx => h x (by simp [hx])]
    rfl

/-- a page with more in its stream -/
theorem PageReads.add {pg pg' : Page} {evs : List Event} {P : List Event → Prop} (h : PageReads pg evs) {str : Str} {ops : List Op} (ho : OpsTo str ops)
    (hs : Sep (bytesOf str)) (hx : ∀ m : MS, m.path = [] → m.text = none → m.gs.cms = [] → ∃ gs evs', exec m ops = some (⟨gs, m.stack, [], none⟩, evs') ∧ gs.cms = [] ∧ P evs')
    (h1 : pg'.stream = (pg.addBytes (bytesOf str)).2.stream) (h2 : pg'.currentId = (pg.addBytes (bytesOf str)).2.currentId) :
    ∃ evs', P evs' ∧ PageReads pg' (evs ++ evs') := by
  obtain ⟨hc, str0, ops0, gs0, e1, e2, ec, e3⟩ := h
  have e : pg'.stream = pg.stream ++ [(pg.currentId, bytesOf str)] := by
    rw [h1]
    exact dset_fresh fun c hcm => by have := hc c hcm; omega
  obtain ⟨gs, evs', hg, hgc, hP⟩ := hx ⟨gs0, [], [], none⟩ rfl rfl ec
  refine ⟨evs', hP, ?_, str0 ++ str, ops0 ++ ops, ?_⟩
  · intro c hcm
    rw [h2]
    show c.1 < pg.currentId + 1
    rw [e, List.mem_append] at hcm
    rcases hcm with hcm | hcm
    · have := hc c hcm; omega
    · simp only [List.mem_singleton] at hcm; subst hcm; simp
  · refine ⟨gs, ?_, e2.append ho hs, hgc, exec_append_of e3 hg⟩
    rw [e, List.map_append, List.flatten_append, e1]
    simp [bytesOf]

theorem pageReads_same {pg pg' : Page} {evs : List Event} (h : PageReads pg evs) (h1 : pg'.stream = pg.stream) (h2 : pg'.currentId = pg.currentId) :
    PageReads pg' evs := by
  obtain ⟨a, b⟩ := h
  exact ⟨by rw [h1, h2]; exact a, by rw [h1]; exact b⟩

/-- what `_add_text` does to the pages -/
theorem addText_read {E : PdfEnv} {F : NumFmt} {p p' : FProc} {s s' : PdfT} {runs : List TextShown} (hs : PagesRead s runs)
    {x y width height : Rat} {text graphics : Str} {used : List FKey} {ids : List (Str × List IdRect)}
    (h : s.addText E F p x y width height text graphics used ids c!"bottom" = .ok (p', s')) {P : List Event → Prop}
    (hP : (∀ c ∈ paragraphStream F x y text graphics, isLatin c = true) → ∃ ops, OpsTo (paragraphStream F x y text graphics) ops ∧
      ∀ m : MS, m.path = [] → m.text = none → m.gs.cms = [] → ∃ gs evs, exec m ops = some (⟨gs, m.stack, [], none⟩, evs) ∧ gs.cms = [] ∧ P evs)
    (hlow : ∀ pg, s.pages[s.pageIndex]? = some pg → pg.marginBottom ≤ pg.height - pg.marginTop → pg.marginBottom ≤ pg.yUp - height) :
    ∃ pg evs, s.pages[s.pageIndex]? = some pg ∧ P evs ∧ PagesRead s' (runs ++ [⟨s.pageIndex, pg.yUp, pg.yUp - height, evs⟩]) ∧
      s'.pages.map Page.sheet = s.pages.map Page.sheet ∧ s'.pageIndex = s.pageIndex := by
  obtain ⟨pg, pg', h1, h2, h3, -, h5, h6⟩ := addText_core hs.out.wf h
  have hlat : ∀ c ∈ paragraphStream F x y text graphics, isLatin c = true := by
    unfold PdfT.addText at h
    rw [h1] at h
    simp only at h
    cases ha : pg.addStr (paragraphStream F x y text graphics) with
    | error e => rw [ha] at h; cases h
    | ok r =>
      unfold Page.addStr at ha
      cases hb : encodeLatin (paragraphStream F x y text graphics) with
      | error e => rw [hb] at ha; cases ha
      | ok b => exact (encodeLatin_inv hb).1
  obtain ⟨ops, o1, o2⟩ := hP hlat
  have sheet_core : ∀ {a b : Page}, a.core = b.core → a.sheet = b.sheet ∧ a.yUp = b.yUp ∧ a.contentWidth = b.contentWidth ∧ a.contentHeight = b.contentHeight := by
    intro a b e
    have f1 := congrArg PCore.w e
    have f2 := congrArg PCore.h e
    have f3 := congrArg PCore.margins e
    have f4 := congrArg PCore.y e
    have f5 := congrArg PCore.cw e
    have f6 := congrArg PCore.ch e
    simp only [Page.core, Prod.mk.injEq] at f1 f2 f3 f4 f5 f6
    obtain ⟨g1, g2, g3, g4⟩ := f3
    refine ⟨?_, f4, f5, f6⟩
    unfold Page.sheet
    rw [f1, f2, g1, g2, g3, g4]
  have hsame : pg'.sheet = pg.sheet ∧ pg'.yUp = pg.yUp - height ∧ pg'.contentWidth = pg.contentWidth ∧ pg'.contentHeight = pg.contentHeight := by
    have e : pg'.core = { (pg.addBytes (bytesOf (paragraphStream F x y text graphics))).2 with yUp := pg.yUp - height }.core := by
      rw [h5]
      unfold moved
      rfl
    exact sheet_core e
  have hstream : pg'.stream = (pg.addBytes (bytesOf (paragraphStream F x y text graphics))).2.stream ∧
      pg'.currentId = (pg.addBytes (bytesOf (paragraphStream F x y text graphics))).2.currentId := by
    have e1 := congrArg PCore.stream h5
    have e2 := congrArg PCore.next h5
    unfold moved at e1 e2
    simp only [Page.core] at e1 e2
    constructor
    · rw [e1]; split <;> split <;> rfl
    · rw [e2]; split <;> split <;> rfl
  obtain ⟨evs, hPe, hr⟩ := (hs.page _ _ h1).add o1 (paragraphStream_sep _ _ _ _ _) o2 hstream.1 hstream.2
  have hsheets : s'.pages.map Page.sheet = s.pages.map Page.sheet := by
    apply List.ext_getElem?
    intro j
    rw [List.getElem?_map, List.getElem?_map]
    by_cases hj : j = s.pageIndex
    · subst hj; rw [h1, h2]; simp [hsame.1]
    · have := h6 j hj
      cases ha : s'.pages[j]? with
      | none => rw [ha] at this; cases hb : s.pages[j]? with
        | none => rfl
        | some b => rw [hb] at this; cases this
      | some a =>
        rw [ha] at this
        cases hb : s.pages[j]? with
        | none => rw [hb] at this; cases this
        | some b =>
          rw [hb] at this
          simp only [Option.map_some, Option.some.injEq] at this
          simp [(sheet_core this).1]
  have hlen : s'.pages.length = s.pages.length := by
    have := congrArg List.length hsheets
    simpa using this
  have hidx : s.pageIndex + 1 = s.pages.length := hs.index (by intro e; rw [e] at h1; simp at h1)
  refine ⟨pg, evs, h1, hPe, ⟨addText_inv hs.out h, fun _ => by rw [h3, hlen, hidx], ?_, ?_, ?_, ?_⟩, hsheets, h3⟩
  · intro i q hi
    rw [paintedOn_snoc]
    by_cases hj : s.pageIndex = i
    · subst hj
      rw [h2] at hi
      cases hi
      rw [if_pos rfl]
      exact hr
    · rw [if_neg hj, List.append_nil]
      have := h6 i (Ne.symm hj)
      rw [hi] at this
      cases hq : s.pages[i]? with
      | none => rw [hq] at this; cases this
      | some q0 =>
        rw [hq] at this
        simp only [Option.map_some, Option.some.injEq] at this
        exact pageReads_same (hs.page i q0 hq) (congrArg PCore.stream this) (congrArg PCore.next this)
  · intro r hr
    rw [hlen]
    rcases List.mem_append.1 hr with hr | hr
    · exact hs.bound r hr
    · simp only [List.mem_singleton] at hr; subst hr; show s.pageIndex < _; omega
  · rw [List.map_append, List.pairwise_append]
    refine ⟨hs.sorted, by simp, ?_⟩
    intro a ha b hb
    simp only [List.map_cons, List.map_nil, List.mem_singleton] at hb
    subst hb
    obtain ⟨r, hr, rfl⟩ := List.mem_map.1 ha
    have := hs.bound r hr
    show r.page ≤ s.pageIndex
    omega
  · intro i q hi
    rw [piecesOn_snoc]
    by_cases hj : s.pageIndex = i
    · subst hj
      rw [h2] at hi
      cases hi
      rw [if_pos rfl]
      obtain ⟨a1, a2, a3, a4⟩ := hs.stack _ _ h1
      obtain ⟨b1, b2, b3, b4⟩ := hsame
      simp only [Page.sheet, Sheet.mk.injEq] at b1
      obtain ⟨c1, c2, c3, c4, c5, c6⟩ := b1
      refine ⟨?_, ?_, by rw [b3, a3, c1, c5, c6], by rw [b4, a4, c2, c3, c4]⟩
      · rw [c2, c3, b2]
        exact stacked_snoc (r := ⟨s.pageIndex, pg.yUp, pg.yUp - height, evs⟩) _ a1 rfl
      · rw [c2, c3, c4, b2]
        exact hlow pg h1
    · rw [if_neg hj, List.append_nil]
      have := h6 i (Ne.symm hj)
      rw [hi] at this
      cases hq : s.pages[i]? with
      | none => rw [hq] at this; cases this
      | some q0 =>
        rw [hq] at this
        simp only [Option.map_some, Option.some.injEq] at this
        obtain ⟨a1, a2, a3, a4⟩ := hs.stack i q0 hq
        obtain ⟨b1, b2, b3, b4⟩ := sheet_core this
        simp only [Page.sheet, Sheet.mk.injEq] at b1
        obtain ⟨c1, c2, c3, c4, c5, c6⟩ := b1
        exact ⟨by rw [c2, c3, b2]; exact a1, by rw [c2, c3, c4, b2]; exact a2, by rw [b3, a3, c1, c5, c6], by rw [b4, a4, c2, c3, c4]⟩

theorem positionAndSize_same (page : Page) (x y w h : Option Rat) : (page.positionAndSize x y w h).2.objId = page.objId ∧
    (page.positionAndSize x y w h).2.annots = page.annots ∧ (page.positionAndSize x y w h).2.stream = page.stream ∧
    (page.positionAndSize x y w h).2.currentId = page.currentId ∧ (page.positionAndSize x y w h).2.sheet = page.sheet ∧
    (page.positionAndSize x y w h).2.contentWidth = page.contentWidth ∧ (page.positionAndSize x y w h).2.contentHeight = page.contentHeight := by
  unfold Page.positionAndSize
  cases y <;> exact ⟨rfl, rfl, rfl, rfl, rfl, rfl, rfl⟩

/-- the current page is replaced by one with the same stream and the same place -/
theorem setPage_read {s : PdfT} {runs : List TextShown} (hs : PagesRead s runs) {pg pg' : Page} (h : s.pages[s.pageIndex]? = some pg)
    (h1 : pg'.objId = pg.objId) (h2 : pg'.annots = pg.annots) (h3 : pg'.stream = pg.stream) (h4 : pg'.currentId = pg.currentId)
    (h5 : pg'.sheet = pg.sheet) (h6 : pg'.contentWidth = pg.contentWidth) (h7 : pg'.contentHeight = pg.contentHeight) (h8 : pg'.yUp = pg.yUp) :
    PagesRead (s.onPage fun _ => pg') runs ∧ (s.onPage fun _ => pg').pages.map Page.sheet = s.pages.map Page.sheet := by
  have hlen : (s.onPage fun _ => pg').pages.length = s.pages.length := by simp [PdfT.onPage]
  have key : ∀ i q, (s.onPage fun _ => pg').pages[i]? = some q → (i = s.pageIndex ∧ q = pg') ∨ s.pages[i]? = some q := by
    intro i q hi
    by_cases hj : i = s.pageIndex
    · subst hj
      rw [PdfT.onPage, modify_at h] at hi
      cases hi
      exact Or.inl ⟨rfl, rfl⟩
    · rw [PdfT.onPage, modify_other hj] at hi
      exact Or.inr hi
  refine ⟨⟨hs.out.hush (Hush.setPage h h1 h2), ?_, ?_, by rw [hlen]; exact hs.bound, hs.sorted, ?_⟩, ?_⟩
  · intro _
    rw [hlen]
    exact hs.index (by intro e; rw [e] at h; simp at h)
  · intro i q hi
    rcases key i q hi with ⟨rfl, rfl⟩ | hi
    · exact pageReads_same (hs.page _ _ h) h3 h4
    · exact hs.page i q hi
  · intro i q hi
    rcases key i q hi with ⟨rfl, rfl⟩ | hi
    · obtain ⟨a1, a2, a3, a4⟩ := hs.stack _ _ h
      simp only [Page.sheet, Sheet.mk.injEq] at h5
      obtain ⟨c1, c2, c3, c4, c5, c6⟩ := h5
      exact ⟨by rw [c2, c3, h8]; exact a1, by rw [c2, c3, c4, h8]; exact a2, by rw [h6, a3, c1, c5, c6], by rw [h7, a4, c2, c3, c4]⟩
    · exact hs.stack i q hi
  · apply List.ext_getElem?
    intro i
    rw [List.getElem?_map, List.getElem?_map]
    by_cases hj : i = s.pageIndex
    · subst hj
      rw [PdfT.onPage, modify_at h, h]
      simp [h5]
    · rw [PdfT.onPage, modify_other hj]

/-- the settings under which a paragraph is written -/
structure TextEnv.Ok (T : TextEnv) : Prop where
  fmt : T.fmt.Ok
  encs : T.encs.Ok

/-- a piece is on a page with this size and these margins, at its left margin -/
def OnSheet (T : TextEnv) (cfg : TCfg) (sheets : List Sheet) (r : TextShown) : Prop :=
  ∃ k, sheets[r.page]? = some k ∧ PieceAt T.fmt cfg k.left r.top (r.top - r.bottom) r.evs

theorem OnSheet.more {T : TextEnv} {cfg : TCfg} {sheets more : List Sheet} {r : TextShown} (h : OnSheet T cfg sheets r) : OnSheet T cfg (sheets ++ more) r := by
  obtain ⟨k, h1, h2⟩ := h
  exact ⟨k, by rw [List.getElem?_append_left (List.getElem?_eq_some_iff.1 h1).1]; exact h1, h2⟩

/-- a paragraph in fonts of the standard, under the names that they have -/
def StdCfg (cfg : TCfg) : Prop := ∀ x ∈ contentLooks cfg.content, ∃ f, Fonts.new.at x.st.font = some f ∧ f.ref = x.st.ref

/-- the strings of a piece are in fonts of the standard that their page has -/
def FacesOn (s : PdfT) (r : TextShown) : Prop :=
  ∀ gs tm mv b, Event.text gs tm mv b ∈ r.evs → ∃ pg k f, s.pages[r.page]? = some pg ∧ Fonts.new.at k = some f ∧ gs.font.1 = bytesOf f.ref ∧
    (dget f.ref pg.fonts).isSome

/-- the pieces are in fonts of the standard -/
structure FontsRead (s : PdfT) (runs : List TextShown) : Prop where
  std : StdInv s
  faces : ∀ r ∈ runs, FacesOn s r

theorem FacesOn.stay {s s' : PdfT} {r : TextShown} (h : FacesOn s r) (hs : FontsStay s s') : FacesOn s' r := by
  intro gs tm mv b he
  obtain ⟨pg, k, f, h1, h2, h3, h4⟩ := h gs tm mv b he
  obtain ⟨pg', h5, h6⟩ := hs _ _ _ h1 h4
  exact ⟨pg', k, f, h5, h2, h3, h6⟩

theorem FontsRead.aside {s s' : PdfT} {runs : List TextShown} (h : FontsRead s runs) (ha : Aside s s') : FontsRead s' runs :=
  ⟨h.std.aside ha, fun r hr => (h.faces r hr).stay ha.stay⟩

/-- `_text`, in the rest of the page -/
theorem putText_read {E : PdfEnv} {T : TextEnv} (hT : T.Ok) {refOf : Str → Str → Str} {p p' : FProc} {s s' : PdfD} {t t' : TextObj}
    {runs : List TextShown} (hs : PagesRead s.doc runs) (hr : Readable T.fmt refOf t.args.cfg) (hreach : TReach T.metrics t.args.cfg t.pos)
    {x y w h : Option Rat} (hrest : ∀ page, s.doc.pages[s.doc.pageIndex]? = some page →
      (page.positionAndSize x y w h).1 = (page.marginLeft, page.yUp, page.contentWidth, page.yUp - page.marginBottom) ∧ (page.positionAndSize x y w h).2.yUp = page.yUp)
    (hp : s.putText E T p t x y w h = .ok ((p', s'), t')) :
    ∃ (r : TextShown) (width height : Rat), t'.args = t.args ∧ t'.pos = (textRun T.metrics t.args.cfg width height t.pos).pos ∧
      Same (eventToks none r.evs) (.sep :: (textRun T.metrics t.args.cfg width height t.pos).lines.flatMap lineChars) ∧
      PagesRead s'.doc (runs ++ [r]) ∧ s'.doc.pages.map Page.sheet = s.doc.pages.map Page.sheet ∧ OnSheet T t.args.cfg (s.doc.pages.map Page.sheet) r ∧
      (∀ font, eventGlyphs font r.evs = (textRun T.metrics t.args.cfg width height t.pos).lines.flatMap (lineGlyphs T.fmt font)) ∧
      (StdCfg t.args.cfg → FontsRead s.doc runs → FontsRead s'.doc (runs ++ [r])) := by
  unfold PdfD.putText at hp
  cases h1 : s.doc.pages[s.doc.pageIndex]? with
  | none => rw [h1] at hp; cases hp
  | some page =>
    rw [h1] at hp
    simp only at hp
    obtain ⟨g1, g2⟩ := hrest page h1
    rw [g1] at hp
    simp only at hp
    cases h2 : textOut T.fmt T.metrics T.encs t.args.cfg t.args.enc page.contentWidth (page.yUp - page.marginBottom) t.pos t.correct with
    | error e => rw [h2] at hp; cases hp
    | ok o =>
      rw [h2] at hp
      simp only at hp
      split at hp
      · cases hp
      · rename_i d hd
        cases hp
        obtain ⟨a1, a2, a3, a4, a5, a6, a7⟩ := positionAndSize_same page x y w h
        obtain ⟨hs1, hsh⟩ := setPage_read hs h1 a1 a2 a3 a4 a5 a6 a7 g2
        have hcur : (s.doc.onPage fun _ => (page.positionAndSize x y w h).2).pages[(s.doc.onPage fun _ => (page.positionAndSize x y w h).2).pageIndex]? =
            some (page.positionAndSize x y w h).2 := modify_at h1 _
        obtain ⟨b1, b2, b3, b4, b5, b6⟩ : page.sheet.w = page.width ∧ page.sheet.h = page.height ∧ page.sheet.top = page.marginTop ∧
          page.sheet.bottom = page.marginBottom ∧ page.sheet.left = page.marginLeft ∧ page.sheet.right = page.marginRight := ⟨rfl, rfl, rfl, rfl, rfl, rfl⟩
        obtain ⟨pg, evs, e0, ⟨e1, e1', e1g, e1f, -⟩, e2, e3, -⟩ := addText_read (p' := d.1) (s' := d.2) hs1 hd (fun hl => text_chunk hT.fmt hT.encs hr hreach h2 _ _ hl) (by
          intro pg hpg hroom
          rw [hcur] at hpg
          cases hpg
          rw [g2]
          have hb : (page.positionAndSize x y w h).2.marginBottom = page.marginBottom := congrArg Sheet.bottom a5
          have ht : (page.positionAndSize x y w h).2.marginTop = page.marginTop := congrArg Sheet.top a5
          have hh : (page.positionAndSize x y w h).2.height = page.height := congrArg Sheet.h a5
          rw [hb, ht, hh] at hroom
          rw [hb]
          have hlow := (hs.stack _ _ h1).low hroom
          have := (C22_height T.metrics t.args.cfg page.contentWidth (page.yUp - page.marginBottom) t.pos hreach).2 (by linarith)
          linarith)
        rw [hcur] at e0
        cases e0
        rw [g2] at e2
        refine ⟨_, _, _, rfl, rfl, ?_, e2, e3.trans hsh, ⟨page.sheet, ?_, ?_⟩, e1g, ?_⟩
        · exact e1
        · show (s.doc.pages.map Page.sheet)[s.doc.pageIndex]? = _
          rw [List.getElem?_map, h1]
          rfl
        · show PieceAt T.fmt t.args.cfg page.marginLeft page.yUp (page.yUp - (page.yUp - _)) evs
          rw [sub_sub_cancel]
          exact e1'
        · intro hstd hfr
          obtain ⟨_, hpost⟩ := hreach.post
          have hused := textRun_used_only T.metrics t.args.cfg page.contentWidth (page.yUp - page.marginBottom) t.pos hpost.lastV
          have hk : ∀ k ∈ (textRun T.metrics t.args.cfg page.contentWidth (page.yUp - page.marginBottom) t.pos).used, ∃ f, Fonts.new.at k = some f := by
            intro k hk
            rcases hused k hk with ⟨x, hx, rfl⟩ | ⟨lc, hlc, -⟩
            · obtain ⟨f, hf, -⟩ := hstd x hx
              exact ⟨f, hf⟩
            · rw [hr.list] at hlc; cases hlc
          have ha := Aside.setPage hfr.std.wf h1 (page' := (page.positionAndSize x y w h).2) (by unfold Page.positionAndSize; cases y <;> rfl)
          obtain ⟨f1, f2, f3⟩ := (hfr.aside ha).std.addText (p' := d.1) (s' := d.2) hk hd
          refine ⟨f1, ?_⟩
          intro r hrr
          rcases List.mem_append.1 hrr with hrr | hrr
          · exact ((hfr.aside ha).faces r hrr).stay f2
          · simp only [List.mem_singleton] at hrr
            subst hrr
            intro gs tm mv b he
            obtain ⟨x, hx, hxu, hxr⟩ := e1f gs tm mv b he
            obtain ⟨f, hf, hfx⟩ := hstd x hx
            obtain ⟨pg, g3, g4⟩ := f3 _ hxu f hf
            exact ⟨pg, _, f, g3, hf, by rw [hxr, hfx], g4⟩

/-- the lines of the runs of a paragraph and what was painted for them -/
def ShownRuns (T : TextEnv) (cfg : TCfg) (rects : List (Rat × Rat)) (evs : List (List Event)) : Prop :=
  List.Forall₂ (fun ls e => Same (eventToks none e) (.sep :: ls.flatMap lineChars) ∧ ∀ font, eventGlyphs font e = ls.flatMap (lineGlyphs T.fmt font)) (textRuns T.metrics cfg rects TPos.init).2 evs

theorem ShownRuns.snoc {T : TextEnv} {cfg : TCfg} {rects : List (Rat × Rat)} {evs : List (List Event)} (h : ShownRuns T cfg rects evs)
    (hf : (textRuns T.metrics cfg rects TPos.init).1.finished = false) {w ht : Rat} {e : List Event}
    (he : Same (eventToks none e) (.sep :: (textRun T.metrics cfg w ht (textRuns T.metrics cfg rects TPos.init).1).lines.flatMap lineChars))
    (hg : ∀ font, eventGlyphs font e = (textRun T.metrics cfg w ht (textRuns T.metrics cfg rects TPos.init).1).lines.flatMap (lineGlyphs T.fmt font)) :
    ShownRuns T cfg (rects ++ [(w, ht)]) (evs ++ [e]) ∧
      (textRuns T.metrics cfg (rects ++ [(w, ht)]) TPos.init).1 = (textRun T.metrics cfg w ht (textRuns T.metrics cfg rects TPos.init).1).pos := by
  unfold ShownRuns
  rw [textRuns_snoc, hf]
  simp only [Bool.false_eq_true, if_false]
  exact ⟨List.rel_append h (.cons ⟨he, hg⟩ .nil), trivial⟩

/-- the loop of `text` -/
theorem moreText_read {E : PdfEnv} {T : TextEnv} (hT : T.Ok) {refOf : Str → Str → Str} {k : Sheet} : ∀ (fuel : Nat) {p p' : FProc} {s s' : PdfD} {t : TextObj}
    {runs : List TextShown} {rects : List (Rat × Rat)} {evs : List (List Event)}, PagesRead s.doc runs → Readable T.fmt refOf t.args.cfg →
      t.pos = (textRuns T.metrics t.args.cfg rects TPos.init).1 → ShownRuns T t.args.cfg rects evs →
      s.moreText E T k fuel p t = .ok (p', s') →
      ∃ (rs : List TextShown) (rects' : List (Rat × Rat)) (n : Nat), PagesRead s'.doc (runs ++ rs) ∧ ShownRuns T t.args.cfg rects' (evs ++ rs.map TextShown.evs) ∧
        (textRuns T.metrics t.args.cfg rects' TPos.init).1.finished = true ∧
        s'.doc.pages.map Page.sheet = s.doc.pages.map Page.sheet ++ List.replicate n k ∧ (∀ r ∈ rs, OnSheet T t.args.cfg (s'.doc.pages.map Page.sheet) r) ∧
        (StdCfg t.args.cfg → FontsRead s.doc runs → FontsRead s'.doc (runs ++ rs)) := by
  intro fuel
  induction fuel with
  | zero =>
    intro p p' s s' t runs rects evs hs hr hpos hsh h
    simp only [PdfD.moreText] at h
    split at h
    · rename_i hf
      cases h
      exact ⟨[], rects, 0, by simpa using hs, by simpa using hsh, by rw [← hpos]; exact hf, by simp, by simp, by simp⟩
    · cases h
  | succ n ih =>
    intro p p' s s' t runs rects evs hs hr hpos hsh h
    simp only [PdfD.moreText] at h
    split at h
    · rename_i hf
      cases h
      exact ⟨[], rects, 0, by simpa using hs, by simpa using hsh, by rw [← hpos]; exact hf, by simp, by simp, by simp⟩
    · rename_i hf
      have hf' : t.pos.finished = false := by simpa using hf
      split at h
      · cases h
      · rename_i page hpage
        split at h
        · cases h
        · rename_i r hput
          obtain ⟨⟨p1, s1⟩, t1⟩ := r
          have hnew : ∃ i, page = Page.new i k.w k.h k.top k.bottom k.left k.right := by
            simp [PdfD.nextPage, PdfT.addPage] at hpage
            exact ⟨_, hpage.symm⟩
          have hnext := addPage_read hs k.w k.h k.top k.bottom k.left k.right
          obtain ⟨e, w, ht, a1, a2, a3, a4, a5, a6, a7, a8⟩ := putText_read (s' := s1) hT hnext hr ⟨rects, hpos, hf'⟩ (by
            intro pg hpg
            have e : some page = some pg := hpage.symm.trans hpg
            cases e
            obtain ⟨i, rfl⟩ := hnew
            simp only [Page.positionAndSize, Page.setY, Page.new, Page.goToBeginning, Option.getD_some, Page.y, and_true]) hput
          have hsheets : (s.nextPage k).doc.pages.map Page.sheet = s.doc.pages.map Page.sheet ++ [k] := addPage_sheets _ _
          rw [hsheets] at a5 a6
          rw [hpos] at a2 a3 a7
          obtain ⟨b1, b2⟩ := hsh.snoc (by rw [← hpos]; exact hf') a3 a7
          obtain ⟨rs, rects', m, c1, c2, c3, c4, c5, c6⟩ := ih (t := t1) a4 (by rw [a1]; exact hr) (rects := rects ++ [(w, ht)]) (by rw [a1, b2, a2])
            (by rw [a1]; exact b1) h
          rw [a1] at c2 c3 c5 c6
          rw [a5] at c4
          refine ⟨_ :: rs, rects', m + 1, by simpa using c1, by simpa using c2, c3, by rw [c4, List.append_assoc]; rfl, ?_, ?_⟩
          · intro r hr
            rcases List.mem_cons.1 hr with rfl | hr
            · rw [c4]; exact a6.more
            · exact c5 r hr
          · intro hstd hfr
            have := c6 hstd (a8 hstd (hfr.aside (Aside.addPage hfr.std.wf _ _ _ _ _ _)))
            simpa using this

theorem runs_glyphs {F : TFmt} (font : Bytes → Option Bytes) : ∀ (lss : List (List (TLine × Bool))) (evs : List (List Event)),
    List.Forall₂ (fun ls e => eventGlyphs font e = ls.flatMap (lineGlyphs F font)) lss evs →
      eventGlyphs font evs.flatten = lss.flatten.flatMap (lineGlyphs F font) := by
  intro lss evs h
  induction h with
  | nil => rfl
  | cons h _ ih => rw [List.flatten_cons, List.flatten_cons, eventGlyphs_append, List.flatMap_append, h, ih]

/-- `text` -/
theorem text_read {E : PdfEnv} {T : TextEnv} (hT : T.Ok) {refOf : Str → Str → Str} {k : Sheet} {fuel : Nat} {p p' : FProc} {s s' : PdfD} {a : TextArgs}
    {runs : List TextShown} (hs : PagesRead s.doc runs) (hr : Readable T.fmt refOf a.cfg) (h : s.text E T k fuel p a = .ok (p', s')) :
    ∃ (rs : List TextShown) (n : Nat), PagesRead s'.doc (runs ++ rs) ∧ wordsOf (rs.flatMap fun r => eventToks none r.evs) = contentWordsOf a.cfg.content ∧
      s'.doc.pages.map Page.sheet = s.doc.pages.map Page.sheet ++ List.replicate n k ∧ (∀ r ∈ rs, OnSheet T a.cfg (s'.doc.pages.map Page.sheet) r) ∧
      (∀ font, eventGlyphs font (rs.flatMap TextShown.evs) = namedGlyphs T.fmt font a.cfg.content) ∧
      (StdCfg a.cfg → FontsRead s.doc runs → FontsRead s'.doc (runs ++ rs)) := by
  unfold PdfD.text at h
  split at h
  · cases h
  · rename_i page hpage
    split at h
    · cases h
    · rename_i r hput
      obtain ⟨⟨p1, s1⟩, t1⟩ := r
      obtain ⟨e, w, ht, a1, a2, a3, a4, a5, a6, a7, a8⟩ := putText_read (t := a.start) (s' := s1) hT hs hr ⟨[], rfl, rfl⟩ (by
        intro pg hpg
        have e : some page = some pg := hpage.symm.trans hpg
        cases e
        simp only [Page.positionAndSize, Option.getD_some, Option.getD_none, Page.y, and_true, Prod.mk.injEq, true_and]
        ring) hput
      obtain ⟨b1, b2⟩ := ShownRuns.snoc (T := T) (cfg := a.cfg) (rects := []) (evs := []) .nil rfl a3 a7
      have e1 : t1.args = a := a1
      obtain ⟨rs, rects', n, c1, c2, c3, c4, c5, c6⟩ := moreText_read hT fuel (t := t1) a4 (by rw [e1]; exact hr) (rects := [] ++ [(w, ht)]) (by rw [e1, b2, a2]; rfl)
        (by rw [e1]; exact b1) h
      rw [e1] at c2 c3 c5 c6
      rw [a5] at c4
      refine ⟨_ :: rs, n, by simpa using c1, ?_, c4, ?_, ?_, ?_⟩
      · rw [← lines_chars T.metrics a.cfg rects' c3, ← runs_words _ _ (c2.imp fun _ _ h => h.1)]
        simp [List.flatMap_map]
      · intro r hr
        rcases List.mem_cons.1 hr with rfl | hr
        · rw [c4]; exact a6.more
        · exact c5 r hr
      · intro font
        rw [← content_glyphs T.fmt font T.metrics a.cfg rects' c3, ← runs_glyphs font _ _ (c2.imp fun _ _ h => h.2 font)]
        simp [List.flatMap_def]
      · intro hstd hfr
        have := c6 hstd (a8 hstd hfr)
        simpa using this

/-- a sequence of calls -/
theorem writes_read {E : PdfEnv} {T : TextEnv} (hT : T.Ok) {refOf : Str → Str → Str} {k : Sheet} {fuel : Nat} : ∀ (l : List WriteOp) {p p' : FProc} {s s' : PdfD}
    {runs : List TextShown}, PagesRead s.doc runs → (∀ a ∈ writtenTexts l, Readable T.fmt refOf a.cfg) → s.writes E T k fuel l p = .ok (p', s') →
    ∃ (rss : List (List TextShown)) (more : List Sheet), PagesRead s'.doc (runs ++ rss.flatten) ∧
      List.Forall₂ (fun a rs => wordsOf (rs.flatMap fun r => eventToks none r.evs) = contentWordsOf a.cfg.content ∧
        (∀ r ∈ rs, OnSheet T a.cfg (s'.doc.pages.map Page.sheet) r) ∧
        ∀ font, eventGlyphs font (rs.flatMap TextShown.evs) = namedGlyphs T.fmt font a.cfg.content) (writtenTexts l) rss ∧
      s'.doc.pages.map Page.sheet = s.doc.pages.map Page.sheet ++ more ∧ (∀ q ∈ more, q = k ∨ WriteOp.page q ∈ l) ∧
      ((∀ a ∈ writtenTexts l, StdCfg a.cfg) → FontsRead s.doc runs → FontsRead s'.doc (runs ++ rss.flatten)) := by
  intro l
  induction l with
  | nil =>
    intro p p' s s' runs hs _ h
    cases h
    exact ⟨[], [], by simpa using hs, .nil, by simp, by simp, by simp⟩
  | cons a l ih =>
    intro p p' s s' runs hs hr h
    simp only [PdfD.writes] at h
    split at h
    · cases h
    · rename_i r hw
      obtain ⟨p1, s1⟩ := r
      cases a with
      | page k' =>
        cases hw
        obtain ⟨rss, more, d1, d2, d3, d4, d5⟩ := ih (addPage_read hs _ _ _ _ _ _) hr h
        have hsheets : (s.nextPage k').doc.pages.map Page.sheet = s.doc.pages.map Page.sheet ++ [k'] := addPage_sheets _ _
        refine ⟨rss, k' :: more, d1, d2, by rw [d3, hsheets, List.append_assoc]; rfl, ?_,
          fun hstd hfr => d5 hstd (hfr.aside (Aside.addPage hfr.std.wf _ _ _ _ _ _))⟩
        intro q hq
        rcases List.mem_cons.1 hq with rfl | hq
        · exact Or.inr (by simp)
        · exact (d4 q hq).imp id fun h => by simp [h]
      | text a =>
        obtain ⟨rs, n, c1, c2, c3, c4, c5, c6⟩ := text_read hT hs (hr a (by simp [writtenTexts])) hw
        obtain ⟨rss, more, d1, d2, d3, d4, d5⟩ := ih c1 (fun b hb => hr b (by
          simp only [writtenTexts, List.filterMap_cons, List.mem_cons]
          exact Or.inr hb)) h
        refine ⟨rs :: rss, List.replicate n k ++ more, by simpa using d1, .cons ⟨c2, ?_, c5⟩ d2, by rw [d3, c3, List.append_assoc], ?_, ?_⟩
        · intro r hr
          rw [d3]
          exact (c4 r hr).more
        · intro q hq
          rcases List.mem_append.1 hq with hq | hq
          · exact Or.inl (List.eq_of_mem_replicate hq)
          · exact (d4 q hq).imp id fun h => by simp [h]
        · intro hstd hfr
          have := d5 (fun b hb => hstd b (by
            simp only [writtenTexts, List.filterMap_cons, List.mem_cons]
            exact Or.inr hb)) (c6 (hstd a (by simp [writtenTexts])) hfr)
          simpa using this

end Verif
