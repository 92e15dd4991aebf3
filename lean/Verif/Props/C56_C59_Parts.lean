import Verif.Model.PdfParts
import Verif.Spec.Parts
import Verif.Props.C40_C41_Page
import Verif.Props.C52_Links
/-! C56–C59: images, tables and content boxes on a page. -/
namespace Verif
open Spec

/-! ### What adding text changes of a page -/

/-- the size, margins and cursor of a page, its stream and its images -/
structure PCore where
  w : Rat
  h : Rat
  cw : Rat
  x : Rat
  y : Rat
  stream : List (Nat × Bytes)
  next : Nat
  xres : List (Str × Nat)
  xObjects : List (Nat × Str)
  margins : Rat × Rat × Rat × Rat
  ch : Rat

def Page.core (p : Page) : PCore := ⟨p.width, p.height, p.contentWidth, p.x, p.yUp, p.stream, p.currentId, p.xres, p.xObjects,
  (p.marginTop, p.marginBottom, p.marginLeft, p.marginRight), p.contentHeight⟩

/-- a step that leaves the pages alone in this respect -/
structure Still (s s' : PdfT) : Prop where
  pages : s'.pages.map Page.core = s.pages.map Page.core
  index : s'.pageIndex = s.pageIndex
  grows : Grows s.base s'.base

theorem Still.refl {s : PdfT} (h : s.base.Wf) : Still s s := ⟨rfl, rfl, h, le_refl _, fun _ _ h => h⟩

theorem Still.trans {a b c : PdfT} (h : Still a b) (h' : Still b c) : Still a c :=
  ⟨h'.pages.trans h.pages, h'.index.trans h.index, h.grows.trans h'.grows⟩

theorem Still.at_ {s s' : PdfT} (h : Still s s') {i : Nat} {pg : Page} (hp : s.pages[i]? = some pg) :
    ∃ pg', s'.pages[i]? = some pg' ∧ pg'.core = pg.core := by
  have e := congrArg (·[i]?) h.pages
  simp only [List.getElem?_map, hp, Option.map_some] at e
  cases hs : s'.pages[i]? with
  | none => rw [hs] at e; cases e
  | some q => rw [hs] at e; exact ⟨q, rfl, by simpa using e⟩

theorem Still.onPage {s : PdfT} (h : s.base.Wf) {f : Page → Page} (hf : ∀ p, (f p).core = p.core) : Still s (s.onPage f) :=
  ⟨map_modify_same _ _ hf _ _, rfl, h, le_refl _, fun _ _ h => h⟩

theorem usedFont_still {E : PdfEnv} {k : FKey} {p p' : FProc} {s s' : PdfT} (h : s.base.Wf) (hg : s.usedFont E p k = .ok (p', s')) :
    Still s s' := by
  have hq := usedFont_quiet h hg
  refine ⟨?_, hq.index, hq.grows⟩
  unfold PdfT.usedFont at hg
  cases h1 : s.addOrGetFont E p k with
  | error e => rw [h1] at hg; cases hg
  | ok r =>
    rw [h1] at hg
    obtain ⟨r, p1, s1⟩ := r
    simp only at hg
    have hp : s1.pages = s.pages := by
      unfold PdfT.addOrGetFont at h1
      split at h1
      · cases h1; rfl
      · split at h1
        · cases h1
        · split at h1
          · cases h1
          · cases h1; rfl
    split at hg
    · cases hg
    · cases hg
      rw [← hp]
      exact map_modify_same Page.core (fun x : Page => x.addFont r.1 r.2) (fun _ => rfl) _ _

theorem usedFonts_still {E : PdfEnv} : ∀ (l : List FKey) {p p' : FProc} {s s' : PdfT}, s.base.Wf → s.usedFonts E l p = .ok (p', s') →
    Still s s' := by
  intro l
  induction l with
  | nil => intro p p' s s' h hg; cases hg; exact Still.refl h
  | cons k l ih =>
    intro p p' s s' h hg
    simp only [PdfT.usedFonts] at hg
    cases h1 : s.usedFont E p k with
    | error e => rw [h1] at hg; cases hg
    | ok r =>
      rw [h1] at hg
      obtain ⟨p1, s1⟩ := r
      have a := usedFont_still h h1
      exact a.trans (ih a.grows.1 hg)

theorem foldl_annot_core {α : Type} (g : α → Annot) (l : List α) (p : Page) :
    (l.foldl (fun p r => p.addAnnot (g r)) p).core = p.core := by
  induction l generalizing p with
  | nil => rfl
  | cons a l ih => simpa [Page.addAnnot, Page.core] using ih (p.addAnnot (g a))

theorem addId_still {E : PdfEnv} {s s' : PdfT} (h : s.base.Wf) {page : Page} {x y : Rat} {id : Str} {rects : List IdRect}
    (hg : s.addId E page x y id rects = .ok s') : Still s s' := by
  obtain ⟨ha, hi⟩ := addId_aside h hg
  refine ⟨?_, hi, ha.grows⟩
  unfold PdfT.addId at hg
  split at hg
  · cases hg; rfl
  · split at hg
    · unfold PdfT.addLabel at hg
      split at hg <;> cases hg
      rfl
    · split at hg
      · cases hg
        exact map_modify_same _ _ (fun p => foldl_annot_core _ _ p) _ _
      · split at hg
        · cases hg
          unfold PdfT.addUris PdfT.uriId
          cases dget _ s.uris <;> exact map_modify_same _ _ (fun p => foldl_annot_core _ _ p) _ _
        · split at hg
          · unfold PdfT.addOutline at hg
            split at hg
            · cases hg
            · split at hg <;> cases hg
              rfl
          · cases hg; rfl

theorem addIds_still {E : PdfEnv} {page : Page} {x y : Rat} : ∀ (l : List (Str × List IdRect)) {s s' : PdfT}, s.base.Wf →
    s.addIds E page x y l = .ok s' → Still s s' := by
  intro l
  induction l with
  | nil => intro s s' h hg; cases hg; exact Still.refl h
  | cons a l ih =>
    intro s s' h hg
    obtain ⟨id, rects⟩ := a
    simp only [PdfT.addIds] at hg
    cases h1 : s.addId E page x y id rects with
    | error e => rw [h1] at hg; cases hg
    | ok s1 =>
      rw [h1] at hg
      have a := addId_still h h1
      exact a.trans (ih a.grows.1 hg)

/-- the cursor after a move -/
def moved (move : Str) (width height : Rat) (c : PCore) : PCore :=
  let c := if move = c!"bottom" then { c with y := c.y - height } else c
  if move = c!"next" then { c with x := c.x + width } else c

theorem movePage_core (move : Str) (w h : Rat) (p : Page) : (movePage move w h p).core = moved move w h p.core := by
  have e : p.height - (p.height - p.yUp + h) = p.yUp - h := by ring
  unfold movePage moved
  simp only [Page.core]
  split <;> split <;> simp [Page.setY, Page.y, e]

theorem modify_at {α : Type} {l : List α} {i : Nat} {a : α} (h : l[i]? = some a) (f : α → α) : (l.modify i f)[i]? = some (f a) := by
  rw [List.getElem?_modify, h]
  simp

theorem modify_other {α : Type} {l : List α} {i j : Nat} {f : α → α} (h : j ≠ i) : (l.modify i f)[j]? = l[j]? := by
  rw [List.getElem?_modify]
  have hne : ¬ i = j := fun e => h e.symm
  simp [hne]

/-- what `_add_text` does to the current page -/
theorem addText_core {E : PdfEnv} {F : NumFmt} {p p' : FProc} {s s' : PdfT} (hw : s.base.Wf) {x y width height : Rat} {text graphics : Str}
    {used : List FKey} {ids : List (Str × List IdRect)} {move : Str}
    (hg : s.addText E F p x y width height text graphics used ids move = .ok (p', s')) :
    ∃ pg pg', s.pages[s.pageIndex]? = some pg ∧ s'.pages[s.pageIndex]? = some pg' ∧ s'.pageIndex = s.pageIndex ∧ Grows s.base s'.base ∧
      pg'.core = moved move width height (pg.addBytes (bytesOf (paragraphStream F x y text graphics))).2.core ∧
      ∀ j, j ≠ s.pageIndex → (s'.pages[j]?).map Page.core = (s.pages[j]?).map Page.core := by
  unfold PdfT.addText at hg
  cases h1 : s.pages[s.pageIndex]? with
  | none => rw [h1] at hg; cases hg
  | some page =>
    rw [h1] at hg
    simp only at hg
    cases h2 : page.addStr (paragraphStream F x y text graphics) with
    | error e => rw [h2] at hg; cases hg
    | ok q =>
      rw [h2] at hg
      obtain ⟨n, page'⟩ := q
      simp only at hg
      obtain ⟨_, e2⟩ := addStr_ok h2
      cases h3 : (s.onPage fun _ => page').usedFonts E used p with
      | error e => rw [h3] at hg; cases hg
      | ok r =>
        rw [h3] at hg
        obtain ⟨p1, s1⟩ := r
        simp only at hg
        have a1 := usedFonts_still used (s := s.onPage fun _ => page') hw h3
        cases h4 : s1.addIds E page x y ids with
        | error e => rw [h4] at hg; cases hg
        | ok s2 =>
          rw [h4] at hg
          cases hg
          have a2 := a1.trans (addIds_still ids a1.grows.1 h4)
          have hp : (s.onPage fun _ => page').pages[s.pageIndex]? = some page' := modify_at h1 _
          obtain ⟨q, hq, ec⟩ := a2.at_ hp
          have hi : s2.pageIndex = s.pageIndex := a2.index
          refine ⟨page, movePage move width height q, rfl, ?_, hi, a2.grows, ?_, ?_⟩
          · show (s2.pages.modify s2.pageIndex _)[s.pageIndex]? = _
            rw [hi]
            exact modify_at hq _
          · rw [movePage_core, ec]
            have : page' = (page.addBytes (bytesOf (paragraphStream F x y text graphics))).2 := by rw [← e2]
            rw [this]
          · intro j hj
            have e := congrArg (·[j]?) a2.pages
            simp only [List.getElem?_map, PdfT.onPage, modify_other hj] at e
            show ((s2.pages.modify s2.pageIndex _)[j]?).map _ = _
            rw [hi, modify_other hj]
            exact e

theorem paragraphStream_eq (F : NumFmt) (x y : Rat) (text graphics : Str) :
    paragraphStream F x y text graphics = paragraphText (F.fmt x) (F.fmt y) text graphics := by
  unfold paragraphStream paragraphText
  congr 1

/-! ### Images -/

theorem imageSize_spec {cw : Rat} {iw ih : Nat} {w h : Option Rat} {r : Rat × Rat} (hr : imageSize cw iw ih w h = .ok r) :
    ImageSize cw iw ih w h r.1 r.2 := by
  have key : ∀ {a : Rat} {b c : Nat} {q : Rat}, scaled a b c = .ok q → a * b = q * c := by
    intro a b c q hq
    unfold scaled at hq
    split at hq
    · cases hq
    · rename_i hc
      cases hq
      have : (c : Rat) ≠ 0 := by exact_mod_cast hc
      exact (div_mul_cancel₀ _ this).symm
  cases w with
  | none =>
    cases h with
    | none =>
      simp only [imageSize] at hr
      cases hs : scaled cw ih iw with
      | error e => rw [hs] at hr; cases hr
      | ok q =>
        rw [hs] at hr
        cases hr
        exact ⟨by simp, by simp, by simp, fun _ => key hs⟩
    | some b =>
      simp only [imageSize] at hr
      cases hs : scaled b iw ih with
      | error e => rw [hs] at hr; cases hr
      | ok q =>
        rw [hs] at hr
        cases hr
        exact ⟨by simp, by simp, by simp, fun _ => (key hs).symm⟩
  | some a =>
    cases h with
    | none =>
      simp only [imageSize] at hr
      cases hs : scaled a ih iw with
      | error e => rw [hs] at hr; cases hr
      | ok q =>
        rw [hs] at hr
        cases hr
        exact ⟨by simp, by simp, by simp, fun _ => key hs⟩
    | some b =>
      simp only [imageSize] at hr
      cases hr
      exact ⟨by simp, by simp, by simp, by simp⟩

/-- the tables of a page are in order -/
structure PCore.Ok (c : PCore) : Prop where
  stream : c.stream.map Prod.fst = List.range c.next
  names : c.xres.map Prod.fst = (List.range c.xres.length).map imName
  mirror : c.xObjects = c.xres.map fun q => (q.2, q.1)
  ids : (c.xObjects.map Prod.fst).Nodup

theorem PCore.Ok.streamInv {p : Page} (h : p.core.Ok) : StreamInv p := h.stream
theorem PCore.Ok.imInv {p : Page} (h : p.core.Ok) : ImInv p := ⟨h.names, h.mirror, h.ids⟩

theorem PCore.Ok.moved {c : PCore} (h : c.Ok) (move : Str) (a b : Rat) : (moved move a b c).Ok := by
  unfold Verif.moved
  simp only
  split <;> split <;> exact ⟨h.stream, h.names, h.mirror, h.ids⟩

/-- a portion is added to the stream -/
def PCore.Adds (c c' : PCore) (portion : Bytes) : Prop := c'.stream = c.stream ++ [(c.next, portion)]

theorem addBytes_core {p : Page} (h : p.core.Ok) (b : Bytes) : p.core.Adds (p.addBytes b).2.core b ∧ (p.addBytes b).2.core.Ok := by
  obtain ⟨h1, h2⟩ := addBytes_inv h.streamInv b
  exact ⟨h1, h2, h.names, h.mirror, h.ids⟩

/-- the image shown by a portion: the name is that of the object on the page, and executing the portion paints it with the given
matrix and leaves the machine as it was -/
def ShowsImage (F : NumFmt) (xres : List (Str × Nat)) (id : Nat) (W H X Y : Rat) (portion : Bytes) : Prop :=
  ∃ name : Str, dget name xres = some id ∧ ∀ m : MS, m.path = [] → m.text = none →
    ∃ gs, execStream m portion = some (m, [.xobject gs (bytesOf name)]) ∧
      gs.cms = m.gs.cms ++ [[bytesOf (F.fmt W), b!"0", b!"0", bytesOf (F.fmt H), bytesOf (F.fmt X), bytesOf (F.fmt Y)]]

/-- the portion for an image, under the name that its object has on the page -/
def ImageIs (F : NumFmt) (xres : List (Str × Nat)) (id : Nat) (W H X Y : Rat) (portion : Bytes) : Prop :=
  ∃ n, dget (imName n) xres = some id ∧ portion = bytesOf (imageText F W H X Y (imName n))

theorem ImageIs.shows {F : NumFmt} (hF : ∀ x, NumText (F.fmt x)) {xres : List (Str × Nat)} {id : Nat} {W H X Y : Rat} {portion : Bytes}
    (h : ImageIs F xres id W H X Y portion) : ShowsImage F xres id W H X Y portion := by
  obtain ⟨n, h1, rfl⟩ := h
  exact ⟨imName n, h1, fun m hp ht => C41_image_painted F hF W H X Y n m hp ht⟩

theorem pageAddImage_core {F : NumFmt} {p q : Page} (h : p.core.Ok) {id : Nat} {W H : Rat}
    (hg : p.addImage F id W H = .ok q) :
    ∃ portion, p.core.Adds q.core portion ∧ q.core.Ok ∧ (∃ t, q.xres = p.xres ++ t) ∧ ImageIs F q.xres id W H p.x p.yUp portion ∧
      q.core.w = p.width ∧ q.core.h = p.height ∧ q.core.x = p.x ∧ q.core.y = p.yUp ∧ q.core.cw = p.contentWidth := by
  obtain ⟨g1, ⟨t, g2⟩, name, g3, g4⟩ := register_inv h.imInv id
  obtain ⟨e1, e2, e3, e4⟩ := registerImage_stream p id
  have e5 : (p.registerImage id).width = p.width ∧ (p.registerImage id).height = p.height ∧
      (p.registerImage id).contentWidth = p.contentWidth := by
    unfold Page.registerImage
    split <;> exact ⟨rfl, rfl, rfl⟩
  simp only [Page.addImage, g3] at hg
  have hok : (p.registerImage id).core.Ok := ⟨by have := h.stream; simpa [Page.core, e1, e2] using this, g1.names, g1.mirror, g1.ids⟩
  split at hg
  · rename_i r hr
    cases hg
    obtain ⟨h1, h2⟩ := addStr_ok hr
    obtain ⟨a1, a2⟩ := addBytes_core hok (bytesOf (imageText F W H (p.registerImage id).x (p.registerImage id).yUp name))
    have hnd : ((p.registerImage id).xres.map Prod.fst).Nodup := by rw [g1.names]; exact imNames_nodup _
    obtain ⟨n, hn⟩ : ∃ n, name = imName n := by
      have : name ∈ (p.registerImage id).xres.map Prod.fst := List.mem_map.2 ⟨_, g4, rfl⟩
      rw [g1.names] at this
      obtain ⟨n, _, e⟩ := List.mem_map.1 this
      exact ⟨n, e.symm⟩
    refine ⟨bytesOf (imageText F W H p.x p.yUp name), ?_, ?_, ⟨t, ?_⟩, ?_, ?_⟩
    · rw [h2]
      simpa [PCore.Adds, Page.core, e1, e2, e3, e4] using a1
    · rw [h2]; exact a2
    · rw [h2]; exact g2
    · subst hn
      refine ⟨n, ?_, rfl⟩
      rw [h2]
      exact dget_of_mem hnd g4
    · rw [h2]
      exact ⟨e5.1, e5.2.1, e3, e4, e5.2.2⟩
  · cases hg

/-- the object of an image: there is one under its name, the earlier ones stay, and a new name gets a new object -/
theorem imageObj_spec {s : PdfD} (hw : s.doc.base.Wf) (im : PImg) :
    Grows s.doc.base (s.imageObj im).2.doc.base ∧ (s.imageObj im).2.doc.pages = s.doc.pages ∧
      (s.imageObj im).2.doc.pageIndex = s.doc.pageIndex ∧ dget im.name (s.imageObj im).2.images = some (s.imageObj im).1 ∧
      (∀ n id, dget n s.images = some id → dget n (s.imageObj im).2.images = some id) ∧
      (dget im.name s.images = none → (s.imageObj im).1 = s.doc.base.count ∧ (s.imageObj im).2.doc.base.dictAt (s.imageObj im).1 = some im.obj ∧
        (s.imageObj im).2.images = s.images ++ [(im.name, s.doc.base.count)]) ∧
      (dget im.name s.images ≠ none → (s.imageObj im).2 = s) := by
  unfold PdfD.imageObj
  cases hd : dget im.name s.images with
  | some id => exact ⟨⟨hw, le_refl _, fun _ _ h => h⟩, rfl, rfl, hd, fun _ _ h => h, by simp, fun _ => rfl⟩
  | none =>
    refine ⟨Grows.add hw im.obj, rfl, rfl, by simp, ?_, fun _ => ⟨rfl, dictAt_add_self hw im.obj, dset_of_none hd⟩, by simp⟩
    intro n id h
    simp only
    rw [dget_dset_ne]
    · exact h
    · rintro rfl
      rw [hd] at h
      cases h

/-- what `add_image` does to a document -/
theorem addImage_core {F : NumFmt} {s s' : PdfD} (hw : s.doc.base.Wf) {im : PImg} {x y w h : Option Rat} {move : Str}
    (hok : ∀ pg, s.doc.pages[s.doc.pageIndex]? = some pg → pg.core.Ok)
    (hg : s.addImage F im x y w h move = .ok s') :
    ∃ pg pg' W H portion id, s.doc.pages[s.doc.pageIndex]? = some pg ∧ s'.doc.pages[s.doc.pageIndex]? = some pg' ∧
      s'.doc.pageIndex = s.doc.pageIndex ∧ (∀ j, j ≠ s.doc.pageIndex → s'.doc.pages[j]? = s.doc.pages[j]?) ∧ ImageSize pg.contentWidth im.width im.height w h W H ∧
      pg.core.Adds pg'.core portion ∧ pg'.core.Ok ∧ (∃ t, pg'.xres = pg.xres ++ t) ∧
      dget im.name s'.images = some id ∧ ImageIs F pg'.xres id W H (x.getD pg.x) (y.getD pg.yUp) portion ∧
      (pg'.width = pg.width ∧ pg'.height = pg.height ∧ pg'.contentWidth = pg.contentWidth) ∧
      pg'.x = x.getD pg.x + (if move = c!"next" then W else 0) ∧ pg'.yUp = y.getD pg.yUp - (if move = c!"bottom" then H else 0) ∧
      s'.images = (s.imageObj im).2.images ∧ s'.doc.base = (s.imageObj im).2.doc.base := by
  unfold PdfD.addImage at hg
  obtain ⟨i1, i2, i3, i4, i5, i6, i7⟩ := imageObj_spec hw im
  simp only [i2, i3] at hg
  cases h1 : s.doc.pages[s.doc.pageIndex]? with
  | none => rw [h1] at hg; cases hg
  | some page =>
    rw [h1] at hg
    simp only at hg
    cases h2 : imageSize page.contentWidth im.width im.height w h with
    | error e => rw [h2] at hg; cases hg
    | ok wh =>
      rw [h2] at hg
      obtain ⟨W, H⟩ := wh
      simp only at hg
      cases h3 : ({ page with x := x.getD page.x, yUp := y.getD page.yUp } : Page).addImage F (s.imageObj im).1 W H with
      | error e => rw [h3] at hg; cases hg
      | ok q =>
        rw [h3] at hg
        cases hg
        have ho := hok _ h1
        have hok' : ({ page with x := x.getD page.x, yUp := y.getD page.yUp } : Page).core.Ok := ⟨ho.stream, ho.names, ho.mirror, ho.ids⟩
        obtain ⟨portion, a1, a2, a3, a4, a5, a6, a7, a8, a9⟩ := pageAddImage_core hok' h3
        have hx : (movePage move W H q).x = x.getD page.x + (if move = c!"next" then W else 0) := by
          have := congrArg PCore.x (movePage_core move W H q)
          rw [show (movePage move W H q).x = (movePage move W H q).core.x from rfl, this]
          unfold moved
          have : q.core.x = x.getD page.x := a7
          simp only
          split <;> split <;> simp [this]
        have hy : (movePage move W H q).yUp = y.getD page.yUp - (if move = c!"bottom" then H else 0) := by
          have := congrArg PCore.y (movePage_core move W H q)
          rw [show (movePage move W H q).yUp = (movePage move W H q).core.y from rfl, this]
          unfold moved
          have : q.core.y = y.getD page.yUp := a8
          simp only
          split <;> split <;> simp [this]
        have hs : ∀ (c : PCore), (moved move W H c).stream = c.stream ∧ (moved move W H c).xres = c.xres ∧ (moved move W H c).w = c.w ∧
            (moved move W H c).h = c.h ∧ (moved move W H c).cw = c.cw := by
          intro c
          unfold moved
          simp only
          split <;> split <;> exact ⟨rfl, rfl, rfl, rfl, rfl⟩
        obtain ⟨s1, s2, s3, s4, s5⟩ := hs q.core
        rw [← movePage_core] at s1 s2 s3 s4 s5
        refine ⟨page, movePage move W H q, W, H, portion, (s.imageObj im).1, rfl, ?_, i3, ?_, imageSize_spec h2, ?_, ?_, ?_, i4, ?_, ?_, hx, hy, rfl, rfl⟩
        · show ((s.imageObj im).2.doc.pages.modify (s.imageObj im).2.doc.pageIndex _)[_]? = _
          rw [i2, i3]
          exact modify_at h1 _
        · intro j hj
          show ((s.imageObj im).2.doc.pages.modify (s.imageObj im).2.doc.pageIndex _)[j]? = _
          rw [i2, i3, modify_other hj]
        · unfold PCore.Adds
          rw [s1]
          exact a1
        · rw [movePage_core]
          exact a2.moved _ _ _
        · show ∃ t, (movePage move W H q).core.xres = _
          rw [s2]
          exact a3
        · show ImageIs F (movePage move W H q).core.xres _ _ _ _ _ _
          rw [s2]
          exact a4
        · exact ⟨s3.trans a5, s4.trans a6, s5.trans a9⟩


/-! ### Histories of a document -/

/-- the current page -/
def PdfD.cur (s : PdfD) : Option Page := s.doc.pages[s.doc.pageIndex]?

/-- what a step on the current page, from `pg` to `pg'`, leaves as it was -/
structure Did (s s' : PdfD) (pg pg' : Page) : Prop where
  before : s.cur = some pg
  after : s'.cur = some pg'
  index : s'.doc.pageIndex = s.doc.pageIndex
  others : ∀ j, j ≠ s.doc.pageIndex → (s'.doc.pages[j]?).map Page.core = (s.doc.pages[j]?).map Page.core
  grows : Grows s.doc.base s'.doc.base
  ok : pg'.core.Ok
  xres : ∃ t, pg'.xres = pg.xres ++ t
  images : ∀ n id, dget n s.images = some id → dget n s'.images = some id
  size : pg'.width = pg.width ∧ pg'.height = pg.height ∧ pg'.contentWidth = pg.contentWidth

theorem Did.trans {a b c : PdfD} {p q q' r : Page} (h : Did a b p q) (h' : Did b c q' r) : Did a c p r := by
  obtain rfl : q = q' := by
    have := h.after.symm.trans h'.before
    simpa using this
  obtain ⟨t, ht⟩ := h.xres
  obtain ⟨t', ht'⟩ := h'.xres
  exact ⟨h.before, h'.after, h'.index.trans h.index, fun j hj => (h'.others j (by rw [h.index]; exact hj)).trans (h.others j hj),
    h.grows.trans h'.grows, h'.ok, ⟨t ++ t', by rw [ht', ht, List.append_assoc]⟩, fun n id hn => h'.images n id (h.images n id hn),
    h'.size.1.trans h.size.1, h'.size.2.1.trans h.size.2.1, h'.size.2.2.trans h.size.2.2⟩

/-- the objects are in order, and so are the pages -/
structure PdfD.Inv (s : PdfD) : Prop where
  wf : s.doc.base.Wf
  pages : ∀ (i : Nat) (pg : Page), s.doc.pages[i]? = some pg → pg.core.Ok

theorem Did.inv {s s' : PdfD} {pg pg' : Page} (h : Did s s' pg pg') (hi : s.Inv) : s'.Inv := by
  refine ⟨h.grows.1, ?_⟩
  intro i q hq
  by_cases e : i = s.doc.pageIndex
  · subst e
    have ha := h.after
    unfold PdfD.cur at ha
    rw [h.index, hq] at ha
    cases ha
    exact h.ok
  · have ho := h.others i e
    rw [hq] at ho
    cases hs : s.doc.pages[i]? with
    | none => rw [hs] at ho; cases ho
    | some p =>
      rw [hs] at ho
      simp only [Option.map_some, Option.some.injEq] at ho
      rw [ho]
      exact hi.pages i p hs

/-- a change of the current page alone -/
theorem Did.page {s : PdfD} (hi : s.Inv) {pg : Page} (hp : s.cur = some pg) {f : Page → Page} (hx : (f pg).xres = pg.xres)
    (hs : (f pg).width = pg.width ∧ (f pg).height = pg.height ∧ (f pg).contentWidth = pg.contentWidth) (hok : (f pg).core.Ok) :
    Did s { s with doc := s.doc.onPage f } pg (f pg) := by
  refine ⟨hp, modify_at hp f, rfl, ?_, ⟨hi.wf, le_refl _, fun _ _ h => h⟩, hok, ⟨[], by simp [hx]⟩, fun _ _ h => h, hs⟩
  intro j hj
  show ((s.doc.pages.modify s.doc.pageIndex f)[j]?).map _ = _
  rw [modify_other hj]

theorem moved_same (move : Str) (a b : Rat) (c : PCore) : (moved move a b c).stream = c.stream ∧ (moved move a b c).xres = c.xres ∧
    (moved move a b c).w = c.w ∧ (moved move a b c).h = c.h ∧ (moved move a b c).cw = c.cw ∧ (moved move a b c).next = c.next := by
  unfold moved
  simp only
  split <;> split <;> exact ⟨rfl, rfl, rfl, rfl, rfl, rfl⟩

/-- what a part puts into the stream of a page with these images -/
def PartShown (F : NumFmt) (xres images : List (Str × Nat)) : PdfPart → Bytes → Prop
  | .paragraph x y _ _ text graphics _ _, portion => portion = bytesOf (paragraphText (F.fmt x) (F.fmt y) text graphics)
  | .image im x y w h, portion => ∃ id, dget im.name images = some id ∧ ShowsImage F xres id w h x y portion

/-- where a part leaves the cursor: left and `_y` -/
def cursorStep (c : Rat × Rat) : PdfPart → Rat × Rat
  | .paragraph _ _ _ height _ _ _ _ => (c.1, c.2 - height)
  | .image _ x y _ height => (x, y - height)

theorem dget_append_left {α β : Type} [DecidableEq α] {k : α} {v : β} {l : List (α × β)} (h : dget k l = some v) (t : List (α × β)) :
    dget k (l ++ t) = some v := by
  induction l with
  | nil => cases h
  | cons a l ih =>
    obtain ⟨a, b⟩ := a
    simp only [List.cons_append, dget] at h ⊢
    split
    · rename_i e
      rw [if_pos e] at h
      exact h
    · rename_i e
      rw [if_neg e] at h
      exact ih h

theorem PartShown.mono {F : NumFmt} {xres images xres' images' : List (Str × Nat)} {a : PdfPart} {portion : Bytes} (h : PartShown F xres images a portion)
    (hx : ∃ t, xres' = xres ++ t) (hi : ∀ n id, dget n images = some id → dget n images' = some id) : PartShown F xres' images' a portion := by
  obtain ⟨t, rfl⟩ := hx
  cases a with
  | paragraph => exact h
  | image im x y w hh =>
    obtain ⟨id, h1, name, h2, h3⟩ := h
    exact ⟨id, hi _ _ h1, name, dget_append_left h2 t, h3⟩

theorem text_did {E : PdfEnv} {F : NumFmt} {p p' : FProc} {s : PdfD} {d : PdfT} (hi : s.Inv) {x y width height : Rat} {text graphics : Str}
    {used : List FKey} {ids : List (Str × List IdRect)} {move : Str}
    (hg : s.doc.addText E F p x y width height text graphics used ids move = .ok (p', d)) :
    ∃ pg pg', Did s { s with doc := d } pg pg' ∧
      pg.core.Adds pg'.core (bytesOf (paragraphText (F.fmt x) (F.fmt y) text graphics)) ∧
      pg'.x = pg.x + (if move = c!"next" then width else 0) ∧ pg'.yUp = pg.yUp - (if move = c!"bottom" then height else 0) := by
  obtain ⟨pg, pg', h1, h2, h3, h4, h5, h6⟩ := addText_core hi.wf hg
  obtain ⟨a1, a2⟩ := addBytes_core (hi.pages _ _ h1) (bytesOf (paragraphStream F x y text graphics))
  obtain ⟨m1, m2, m3, m4, m5, m6⟩ := moved_same move width height (pg.addBytes (bytesOf (paragraphStream F x y text graphics))).2.core
  rw [← h5] at m1 m2 m3 m4 m5 m6
  refine ⟨pg, pg', ⟨h1, ?_, h3, h6, h4, ?_, ⟨[], ?_⟩, fun _ _ h => h, m3, m4, m5⟩, ?_, ?_, ?_⟩
  · show d.pages[d.pageIndex]? = _
    rw [h3]
    exact h2
  · rw [h5]
    exact a2.moved _ _ _
  · rw [List.append_nil]
    exact m2
  · unfold PCore.Adds
    rw [m1, ← paragraphStream_eq]
    exact a1
  · rw [show pg'.x = pg'.core.x from rfl, h5]
    unfold moved
    simp only
    split <;> split <;> simp [Page.addBytes, Page.core]
  · rw [show pg'.yUp = pg'.core.y from rfl, h5]
    unfold moved
    simp only
    split <;> split <;> simp [Page.addBytes, Page.core]

theorem image_did {F : NumFmt} {s s' : PdfD} (hi : s.Inv) {im : PImg} {x y w h : Option Rat} {move : Str}
    (hg : s.addImage F im x y w h move = .ok s') :
    ∃ pg pg' W H portion id, Did s s' pg pg' ∧ ImageSize pg.contentWidth im.width im.height w h W H ∧ pg.core.Adds pg'.core portion ∧
      dget im.name s'.images = some id ∧ ImageIs F pg'.xres id W H (x.getD pg.x) (y.getD pg.yUp) portion ∧
      pg'.x = x.getD pg.x + (if move = c!"next" then W else 0) ∧ pg'.yUp = y.getD pg.yUp - (if move = c!"bottom" then H else 0) := by
  obtain ⟨pg, pg', W, H, portion, id, h1, h2, h3, h4, h5, h6, h7, h8, h9, h10, h11, h12, h13, h14, h15⟩ :=
    addImage_core hi.wf (fun pg hp => hi.pages _ pg hp) hg
  obtain ⟨i1, i2, i3, i4, i5, i6, i7⟩ := imageObj_spec hi.wf im
  refine ⟨pg, pg', W, H, portion, id, ⟨h1, ?_, h3, ?_, ?_, h7, h8, ?_, h11⟩, h5, h6, h9, h10, h12, h13⟩
  · unfold PdfD.cur
    rw [h3]
    exact h2
  · intro j hj
    rw [h4 j hj]
  · rw [h15]; exact i1
  · rw [h14]; exact i5

theorem part_did {E : PdfEnv} {F : NumFmt} (hF : ∀ x, NumText (F.fmt x)) {p p' : FProc} {s s' : PdfD} (hi : s.Inv) {a : PdfPart}
    (hg : s.addPart E F p a = .ok (p', s')) :
    ∃ pg pg' portion, Did s s' pg pg' ∧ pg.core.Adds pg'.core portion ∧ PartShown F pg'.xres s'.images a portion ∧
      (pg'.x, pg'.yUp) = cursorStep (pg.x, pg.yUp) a := by
  cases a with
  | paragraph x y width height text graphics used ids =>
    simp only [PdfD.addPart] at hg
    cases h1 : s.doc.addText E F p x y width height text graphics used ids c!"bottom" with
    | error e => rw [h1] at hg; cases hg
    | ok r =>
      rw [h1] at hg
      cases hg
      obtain ⟨pg, pg', a1, a2, a3, a4⟩ := text_did hi (p' := r.1) (d := r.2) h1
      refine ⟨pg, pg', _, a1, a2, rfl, ?_⟩
      rw [a3, a4]
      simp [cursorStep]
  | image im x y width height =>
    simp only [PdfD.addPart] at hg
    cases h1 : s.addImage F im (some x) (some y) (some width) (some height) c!"bottom" with
    | error e => rw [h1] at hg; cases hg
    | ok r =>
      rw [h1] at hg
      cases hg
      obtain ⟨pg, pg', W, H, portion, id, a1, a2, a3, a4, a5, a6, a7⟩ := image_did hi h1
      obtain ⟨b1, b2, -⟩ := a2
      obtain rfl := b1 _ rfl
      obtain rfl := b2 _ rfl
      refine ⟨pg, pg', portion, a1, a3, ⟨id, a4, a5.shows hF⟩, ?_⟩
      rw [a6, a7]
      simp [cursorStep]

theorem parts_did {E : PdfEnv} {F : NumFmt} (hF : ∀ x, NumText (F.fmt x)) : ∀ (l : List PdfPart) {p p' : FProc} {s s' : PdfD} {pg : Page}, s.Inv →
    s.cur = some pg → s.addParts E F l p = .ok (p', s') →
    ∃ pg' portions, Did s s' pg pg' ∧ pg'.stream.map Prod.snd = pg.stream.map Prod.snd ++ portions ∧
      List.Forall₂ (PartShown F pg'.xres s'.images) l portions ∧ (pg'.x, pg'.yUp) = l.foldl cursorStep (pg.x, pg.yUp) := by
  intro l
  induction l with
  | nil =>
    intro p p' s s' pg hi hp hg
    cases hg
    refine ⟨pg, [], ⟨hp, hp, rfl, fun _ _ => rfl, ⟨hi.wf, le_refl _, fun _ _ h => h⟩, hi.pages _ _ hp, ⟨[], by simp⟩, fun _ _ h => h, rfl, rfl, rfl⟩,
      by simp, List.Forall₂.nil, rfl⟩
  | cons a l ih =>
    intro p p' s s' pg hi hp hg
    simp only [PdfD.addParts] at hg
    cases h1 : s.addPart E F p a with
    | error e => rw [h1] at hg; cases hg
    | ok r =>
      rw [h1] at hg
      obtain ⟨p1, s1⟩ := r
      obtain ⟨q, q', portion, a1, a2, a3, a4⟩ := part_did hF hi h1
      have e := a1.before.symm.trans hp
      simp only [Option.some.injEq] at e
      subst e
      obtain ⟨pg', portions, b1, b2, b3, b4⟩ := ih (a1.inv hi) a1.after hg
      refine ⟨pg', portion :: portions, a1.trans b1, ?_, List.Forall₂.cons (a3.mono b1.xres b1.images) b3, ?_⟩
      · have e : q'.stream = q.stream ++ [(q.currentId, portion)] := a2
        rw [b2, e]
        simp
      · rw [b4, a4]
        rfl

theorem box_did {E : PdfEnv} {F : NumFmt} (hF : ∀ x, NumText (F.fmt x)) {p p' : FProc} {s s' : PdfD} {b : BoxOut} {width : Rat} {move : Str}
    (hi : s.Inv) (hg : s.addBox E F p b width move = .ok (p', s')) :
    ∃ pg pg' portions g, Did s s' pg pg' ∧ createGraphics F (b.fills ++ b.lines) = .ok g ∧
      pg'.stream.map Prod.snd = pg.stream.map Prod.snd ++ bytesOf g :: portions ∧ List.Forall₂ (PartShown F pg'.xres s'.images) b.parts portions ∧
      pg'.x = (b.parts.foldl cursorStep (pg.x, pg.yUp)).1 + (if move = c!"next" then width else 0) ∧
      pg'.yUp = (b.parts.foldl cursorStep (pg.x, pg.yUp)).2 - (if move = c!"bottom" then b.height else 0) := by
  unfold PdfD.addBox PdfD.addGraphics at hg
  cases h1 : createGraphics F (b.fills ++ b.lines) with
  | error e => rw [h1] at hg; cases hg
  | ok g =>
    rw [h1] at hg
    simp only at hg
    cases h2 : s.doc.pages[s.doc.pageIndex]? with
    | none => rw [h2] at hg; cases hg
    | some pg =>
      rw [h2] at hg
      simp only at hg
      cases h3 : pg.addStr g with
      | error e => rw [h3] at hg; cases hg
      | ok r =>
        rw [h3] at hg
        simp only at hg
        obtain ⟨_, e3⟩ := addStr_ok h3
        obtain ⟨a1, a2⟩ := addBytes_core (hi.pages _ _ h2) (bytesOf g)
        rw [← e3] at a1 a2
        have d1 : Did s { s with doc := s.doc.onPage fun _ => r.2 } pg r.2 :=
          Did.page hi h2 (f := fun _ => r.2) (by rw [e3]; rfl) (by rw [e3]; exact ⟨rfl, rfl, rfl⟩) a2
        cases h4 : ({ s with doc := s.doc.onPage fun _ => r.2 } : PdfD).addParts E F b.parts p with
        | error e => rw [h4] at hg; cases hg
        | ok t =>
          rw [h4] at hg
          simp only [Except.ok.injEq, Prod.mk.injEq] at hg
          obtain ⟨-, rfl⟩ := hg
          obtain ⟨q, portions, b1, b2, b3, b4⟩ := parts_did hF b.parts (d1.inv hi) d1.after (p' := t.1) (s' := t.2) h4
          obtain ⟨m1, m2, m3, m4, m5, m6⟩ := moved_same move width b.height q.core
          rw [← movePage_core] at m1 m2 m3 m4 m5 m6
          have d2 := (d1.trans b1).trans (Did.page ((d1.trans b1).inv hi) b1.after (f := movePage move width b.height) m2 ⟨m3, m4, m5⟩
            (by rw [movePage_core]; exact b1.ok.moved _ _ _))
          have ec : (r.2.x, r.2.yUp) = (pg.x, pg.yUp) := by rw [e3]; rfl
          rw [ec] at b4
          refine ⟨pg, _, portions, g, d2, rfl, ?_, ?_, ?_, ?_⟩
          · rw [show (movePage move width b.height q).stream = q.stream from m1, b2]
            have : r.2.stream = pg.stream ++ [(pg.currentId, bytesOf g)] := a1
            rw [this]
            simp
          · rw [show (movePage move width b.height q).xres = q.xres from m2]
            exact b3
          · rw [← b4, show (movePage move width b.height q).x = (movePage move width b.height q).core.x from rfl, movePage_core]
            unfold moved
            simp only
            split <;> split <;> simp [Page.core]
          · rw [← b4, show (movePage move width b.height q).yUp = (movePage move width b.height q).core.y from rfl, movePage_core]
            unfold moved
            simp only
            split <;> split <;> simp [Page.core]

/-- what is done with a document: a page, a paragraph, an image, a table or content box -/
inductive PdfOp
  | page (w h top bottom left right : Rat)
  | text (x y width height : Rat) (text graphics : Str) (used : List FKey) (ids : List (Str × List IdRect)) (move : Str)
  | image (im : PImg) (x y width height : Option Rat) (move : Str)
  | box (b : BoxOut) (width : Rat) (move : Str)

def PdfD.op (E : PdfEnv) (F : NumFmt) (p : FProc) (s : PdfD) : PdfOp → Except PyErr (FProc × PdfD)
  | .page a b c d e f => .ok (p, { s with doc := s.doc.addPage a b c d e f })
  | .text x y width height text graphics used ids move =>
    (s.doc.addText E F p x y width height text graphics used ids move).map fun r => (r.1, { s with doc := r.2 })
  | .image im x y width height move => (s.addImage F im x y width height move).map fun r => (p, r)
  | .box b width move => s.addBox E F p b width move

def PdfD.ops (E : PdfEnv) (F : NumFmt) : List PdfOp → FProc × PdfD → Except PyErr (FProc × PdfD)
  | [], r => .ok r
  | o :: l, r => match r.2.op E F r.1 o with
    | .error e => .error e
    | .ok r' => PdfD.ops E F l r'

/-- a new document with what was done to it -/
def PdfD.history (E : PdfEnv) (F : NumFmt) (p : FProc) (version : Str) (l : List PdfOp) : Except PyErr (FProc × PdfD) :=
  match PdfT.new E p version with
  | .error e => .error e
  | .ok r => PdfD.ops E F l (r.1, ⟨r.2, []⟩)

def PdfPart.imgs : PdfPart → List PImg
  | .paragraph .. => []
  | .image im .. => [im]

def PdfOp.imgs : PdfOp → List PImg
  | .page .. => []
  | .text .. => []
  | .image im .. => [im]
  | .box b _ _ => b.parts.flatMap PdfPart.imgs

/-- the images of a document: one object for each name, that of the first image with it -/
structure Imgs (l : List PImg) (s : PdfD) : Prop where
  none_ : ∀ n, (l.find? fun im => im.name = n) = none → dget n s.images = none
  some_ : ∀ n im, (l.find? fun im => im.name = n) = some im → ∃ id, dget n s.images = some id ∧ s.doc.base.dictAt id = some im.obj
  inj : ∀ n n' id, dget n s.images = some id → dget n' s.images = some id → n = n'
  bound : ∀ n id, dget n s.images = some id → id < s.doc.base.count

theorem Imgs.grow {l : List PImg} {s s' : PdfD} (h : Imgs l s) (he : s'.images = s.images) (hg : Grows s.doc.base s'.doc.base) : Imgs l s' := by
  refine ⟨fun n hn => by rw [he]; exact h.none_ n hn, ?_, by rw [he]; exact h.inj, ?_⟩
  · intro n im hn
    obtain ⟨id, h1, h2⟩ := h.some_ n im hn
    exact ⟨id, by rw [he]; exact h1, hg.2.2 _ _ h2⟩
  · intro n id hn
    rw [he] at hn
    exact lt_of_lt_of_le (h.bound n id hn) hg.2.1

theorem Imgs.obj {l : List PImg} {s : PdfD} (h : Imgs l s) (hw : s.doc.base.Wf) (im : PImg) : Imgs (l ++ [im]) (s.imageObj im).2 := by
  obtain ⟨i1, i2, i3, i4, i5, i6, i7⟩ := imageObj_spec hw im
  cases hd : dget im.name s.images with
  | some id =>
    rw [i7 (by rw [hd]; simp)]
    have hf : ∀ n, ((l ++ [im]).find? fun im => im.name = n) = l.find? fun im => im.name = n := by
      intro n
      rw [List.find?_append]
      cases hl : l.find? fun im => im.name = n with
      | some a => rfl
      | none =>
        have hn : im.name ≠ n := by
          rintro rfl
          have := h.none_ _ hl
          rw [hd] at this
          cases this
        simp [hn]
    exact ⟨fun n hn => h.none_ n (by rw [← hf]; exact hn), fun n a hn => h.some_ n a (by rw [← hf]; exact hn), h.inj, h.bound⟩
  | none =>
    obtain ⟨e1, e2, e3⟩ := i6 hd
    have hl : (l.find? fun a => a.name = im.name) = none := by
      cases hl : l.find? fun a => a.name = im.name with
      | none => rfl
      | some a =>
        obtain ⟨id, h1, _⟩ := h.some_ _ _ hl
        rw [hd] at h1
        cases h1
    have hne : ∀ n, n ≠ im.name → dget n (s.imageObj im).2.images = dget n s.images := by
      intro n hn
      rw [e3, ← dset_of_none hd]
      rw [dget_dset_ne]
      exact fun e => hn e.symm
    have hfn : ∀ n, n ≠ im.name → ((l ++ [im]).find? fun im => im.name = n) = l.find? fun im => im.name = n := by
      intro n hn
      rw [List.find?_append]
      have : im.name ≠ n := fun e => hn e.symm
      cases hl : l.find? fun im => im.name = n <;> simp [this]
    have hfs : ((l ++ [im]).find? fun a => a.name = im.name) = some im := by
      rw [List.find?_append, hl]
      simp
    refine ⟨?_, ?_, ?_, ?_⟩
    · intro n hn
      by_cases e : n = im.name
      · subst e; rw [hfs] at hn; cases hn
      · rw [hne n e]; exact h.none_ n (by rw [← hfn n e]; exact hn)
    · intro n a hn
      by_cases e : n = im.name
      · subst e
        rw [hfs] at hn
        cases hn
        exact ⟨_, i4, e2⟩
      · rw [hfn n e] at hn
        obtain ⟨id, h1, h2⟩ := h.some_ n a hn
        exact ⟨id, by rw [hne n e]; exact h1, i1.2.2 _ _ h2⟩
    · intro n n' id h1 h2
      by_cases e : n = im.name <;> by_cases e' : n' = im.name
      · rw [e, e']
      · subst e
        rw [i4] at h1
        rw [hne n' e'] at h2
        have := h.bound n' id h2
        simp only [Option.some.injEq] at h1
        omega
      · subst e'
        rw [i4] at h2
        rw [hne n e] at h1
        have := h.bound n id h1
        simp only [Option.some.injEq] at h2
        omega
      · rw [hne n e] at h1
        rw [hne n' e'] at h2
        exact h.inj n n' id h1 h2
    · intro n id h1
      by_cases e : n = im.name
      · subst e
        rw [i4] at h1
        simp only [Option.some.injEq] at h1
        rw [← h1]
        exact (dictAt_lt i1.1 e2).2
      · rw [hne n e] at h1
        exact lt_of_lt_of_le (h.bound n id h1) i1.2.1

theorem addImage_imgs {F : NumFmt} {l : List PImg} {s s' : PdfD} (h : Imgs l s) (hw : s.doc.base.Wf) {im : PImg} {x y w hh : Option Rat} {move : Str}
    (hg : s.addImage F im x y w hh move = .ok s') : Imgs (l ++ [im]) s' := by
  have hI := h.obj hw im
  unfold PdfD.addImage at hg
  simp only at hg
  split at hg
  · cases hg
  · split at hg
    · cases hg
    · split at hg
      · cases hg
      · cases hg
        exact hI.grow rfl ⟨(imageObj_spec hw im).1.1, le_refl _, fun _ _ h => h⟩

theorem parts_imgs {E : PdfEnv} {F : NumFmt} (hF : ∀ x, NumText (F.fmt x)) : ∀ (ps : List PdfPart) {l : List PImg} {p p' : FProc} {s s' : PdfD}, Imgs l s →
    s.Inv → s.addParts E F ps p = .ok (p', s') → Imgs (l ++ ps.flatMap PdfPart.imgs) s' := by
  intro ps
  induction ps with
  | nil => intro l p p' s s' h hi hg; cases hg; simpa using h
  | cons a ps ih =>
    intro l p p' s s' h hi hg
    simp only [PdfD.addParts] at hg
    cases h1 : s.addPart E F p a with
    | error e => rw [h1] at hg; cases hg
    | ok r =>
      rw [h1] at hg
      obtain ⟨p1, s1⟩ := r
      obtain ⟨q, q', portion, a1, a2, a3, a4⟩ := part_did hF hi h1
      have h2 : Imgs (l ++ a.imgs) s1 := by
        cases a with
        | paragraph x y width height text graphics used ids =>
          simp only [PdfD.addPart] at h1
          cases ht : s.doc.addText E F p x y width height text graphics used ids c!"bottom" with
          | error e => rw [ht] at h1; cases h1
          | ok r =>
            rw [ht] at h1
            cases h1
            simpa [PdfPart.imgs] using h.grow (s' := { s with doc := r.2 }) rfl a1.grows
        | image im x y width height =>
          simp only [PdfD.addPart] at h1
          cases ht : s.addImage F im (some x) (some y) (some width) (some height) c!"bottom" with
          | error e => rw [ht] at h1; cases h1
          | ok r =>
            rw [ht] at h1
            cases h1
            exact addImage_imgs h hi.wf ht
      have := ih h2 (a1.inv hi) hg
      simpa using this

theorem op_ok {E : PdfEnv} {F : NumFmt} (hF : ∀ x, NumText (F.fmt x)) {l : List PImg} {p p' : FProc} {s s' : PdfD} {o : PdfOp} (hi : s.Inv) (h : Imgs l s)
    (hg : s.op E F p o = .ok (p', s')) : s'.Inv ∧ Imgs (l ++ o.imgs) s' := by
  cases o with
  | page a b c d e f =>
    cases hg
    have g := (Grows.add hi.wf [(kFilter, .bytes b!"/FlateDecode"), (kStream, .dict [])]).trans
      (Grows.add (hi.wf.addDict _) [(kType, .bytes b!"/Page"), (kContents, .ref (s.doc.base.addDict [(kFilter, .bytes b!"/FlateDecode"), (kStream, .dict [])]).1),
        (kResources, .dict [])])
    refine ⟨⟨g.1, ?_⟩, by simpa [PdfOp.imgs] using h.grow (s' := { s with doc := s.doc.addPage a b c d e f }) rfl g⟩
    intro i pg hp
    have hp' : (s.doc.pages ++ [Page.new (s.doc.base.count + 1) a b c d e f])[i]? = some pg := by
      simpa [PdfT.addPage, Base.addDict, Base.add, Base.count] using hp
    rw [List.getElem?_append] at hp'
    split at hp'
    · exact hi.pages i pg hp'
    · obtain rfl : Page.new (s.doc.base.count + 1) a b c d e f = pg := by
        cases hx : i - s.doc.pages.length with
        | zero => rw [hx] at hp'; simpa using hp'
        | succ n => rw [hx] at hp'; simp at hp'
      exact ⟨rfl, rfl, rfl, List.nodup_nil⟩
  | text x y width height text graphics used ids move =>
    simp only [PdfD.op] at hg
    cases h1 : s.doc.addText E F p x y width height text graphics used ids move with
    | error e => rw [h1] at hg; cases hg
    | ok r =>
      rw [h1] at hg
      cases hg
      obtain ⟨pg, pg', a1, -⟩ := text_did hi (p' := r.1) (d := r.2) h1
      exact ⟨a1.inv hi, by simpa [PdfOp.imgs] using h.grow (s' := { s with doc := r.2 }) rfl a1.grows⟩
  | image im x y w hh move =>
    simp only [PdfD.op] at hg
    cases h1 : s.addImage F im x y w hh move with
    | error e => rw [h1] at hg; cases hg
    | ok r =>
      rw [h1] at hg
      cases hg
      obtain ⟨pg, pg', W, H, portion, id, a1, -⟩ := image_did hi h1
      exact ⟨a1.inv hi, addImage_imgs h hi.wf h1⟩
  | box b width move =>
    simp only [PdfD.op] at hg
    obtain ⟨pg, pg', portions, g, a1, -⟩ := box_did hF hi hg
    refine ⟨a1.inv hi, ?_⟩
    unfold PdfD.addBox at hg
    cases h1 : s.addGraphics F (b.fills ++ b.lines) with
    | error e => rw [h1] at hg; cases hg
    | ok s1 =>
      rw [h1] at hg
      simp only at hg
      have e1 : s1.images = s.images ∧ s1.doc.base = s.doc.base ∧ s1.Inv := by
        unfold PdfD.addGraphics at h1
        split at h1
        · cases h1
        · split at h1
          · cases h1
          · rename_i pg hp
            split at h1
            · cases h1
            · rename_i r hr
              cases h1
              obtain ⟨_, e3⟩ := addStr_ok hr
              refine ⟨rfl, rfl, ?_⟩
              obtain ⟨_, a2⟩ := addBytes_core (hi.pages _ _ hp) (bytesOf ‹Str›)
              exact (Did.page hi hp (f := fun _ => r.2) (by rw [e3]; rfl) (by rw [e3]; exact ⟨rfl, rfl, rfl⟩) (by rw [e3]; exact a2)).inv hi
      cases h2 : s1.addParts E F b.parts p with
      | error e => rw [h2] at hg; cases hg
      | ok r =>
        rw [h2] at hg
        simp only [Except.ok.injEq, Prod.mk.injEq] at hg
        obtain ⟨-, rfl⟩ := hg
        have h3 : Imgs l s1 := h.grow e1.1 (by rw [e1.2.1]; exact ⟨hi.wf, le_refl _, fun _ _ h => h⟩)
        have h4 := parts_imgs hF b.parts h3 e1.2.2 (p' := r.1) (s' := r.2) h2
        exact h4.grow rfl ⟨a1.grows.1, le_refl _, fun _ _ h => h⟩

theorem ops_ok {E : PdfEnv} {F : NumFmt} (hF : ∀ x, NumText (F.fmt x)) : ∀ (ops : List PdfOp) {l : List PImg} {r r' : FProc × PdfD}, r.2.Inv → Imgs l r.2 →
    PdfD.ops E F ops r = .ok r' → r'.2.Inv ∧ Imgs (l ++ ops.flatMap PdfOp.imgs) r'.2 := by
  intro ops
  induction ops with
  | nil => intro l r r' hi h hg; cases hg; exact ⟨hi, by simpa using h⟩
  | cons o ops ih =>
    intro l r r' hi h hg
    simp only [PdfD.ops] at hg
    cases h1 : r.2.op E F r.1 o with
    | error e => rw [h1] at hg; cases hg
    | ok q =>
      rw [h1] at hg
      obtain ⟨h2, h3⟩ := op_ok hF hi h (p' := q.1) (s' := q.2) h1
      have := ih h2 h3 hg
      simpa using this

theorem history_ok {E : PdfEnv} {F : NumFmt} (hF : ∀ x, NumText (F.fmt x)) {p : FProc} {version : Str} {ops : List PdfOp} {r : FProc × PdfD}
    (hg : PdfD.history E F p version ops = .ok r) : r.2.Inv ∧ Imgs (ops.flatMap PdfOp.imgs) r.2 := by
  unfold PdfD.history PdfT.new at hg
  have hw : (PdfT.init version).base.Wf := by
    have hw : (Base.new version []).Wf := by simp [Base.Wf, Base.new]
    exact hw.addDict _
  cases h1 : (PdfT.init version).addOrGetFont E p (c!"Helvetica", c!"n") with
  | error e => rw [h1] at hg; cases hg
  | ok q =>
    rw [h1] at hg
    obtain ⟨f, p', s⟩ := q
    have hq := addOrGet_quiet hw h1
    have hp : s.pages = [] := by
      have := congrArg List.length hq.pages
      simpa [PdfT.init] using this
    have := ops_ok hF ops (l := []) (r := (p', ⟨s, []⟩)) ⟨hq.grows.1, by simp [hp]⟩
      ⟨fun _ _ => rfl, by simp, by simp [dget], by simp [dget]⟩ hg
    simpa using this


/-! ### C56: images -/

/-- C56 but for the place of the top: after any history, an image added to a document has the size asked for (`ImageSize`); one
portion is added at the end of the stream of the current page, that paints the object of the image (and nothing else) with the lower left
corner at `(x, y)`; all other pages stay as they are; the cursor ends at the right or at the lower edge less the height. Missing: the top
of the image is at `y` (`C56_top_false`). -/
theorem C56_image_partial (E : PdfEnv) (F : NumFmt) (hF : ∀ x, NumText (F.fmt x)) (p0 : FProc) (version : Str) (ops : List PdfOp)
    (p : FProc) (s s' : PdfD) (hh : PdfD.history E F p0 version ops = .ok (p, s)) (im : PImg) (x y w h : Option Rat) (move : Str)
    (hg : s.addImage F im x y w h move = .ok s') :
    ∃ (pg pg' : Page) (W H : Rat) (portion : Bytes) (id : Nat), s.cur = some pg ∧ s'.cur = some pg' ∧
      ImageSize pg.contentWidth im.width im.height w h W H ∧
      pg'.stream.map Prod.snd = pg.stream.map Prod.snd ++ [portion] ∧
      ShowsImage F pg'.xres id W H (x.getD pg.x) (y.getD pg.yUp) portion ∧ (∃ d, s'.doc.base.dictAt id = some d) ∧
      dget im.name s'.images = some id ∧
      (∀ j, j ≠ s.doc.pageIndex → (s'.doc.pages[j]?).map Page.core = (s.doc.pages[j]?).map Page.core) ∧
      pg'.x = x.getD pg.x + (if move = c!"next" then W else 0) ∧ pg'.yUp = y.getD pg.yUp - (if move = c!"bottom" then H else 0) := by
  obtain ⟨hi, hI⟩ := history_ok hF hh
  obtain ⟨pg, pg', W, H, portion, id, a1, a2, a3, a4, a5, a6, a7⟩ := image_did hi hg
  replace a5 := a5.shows hF
  refine ⟨pg, pg', W, H, portion, id, a1.before, a1.after, a2, ?_, a5, ?_, a4, a1.others, a6, a7⟩
  · have e : pg'.stream = pg.stream ++ [(pg.currentId, portion)] := a3
    rw [e]
    simp
  · have hI' := addImage_imgs hI hi.wf hg
    cases hf : ((ops.flatMap PdfOp.imgs) ++ [im]).find? fun a => a.name = im.name with
    | none =>
      have := hI'.none_ _ hf
      rw [a4] at this
      cases this
    | some a =>
      obtain ⟨id', h1, h2⟩ := hI'.some_ _ _ hf
      rw [a4] at h1
      cases h1
      exact ⟨_, h2⟩

private def ex56E : PdfEnv := ⟨fun _ => none, fun x => .int x.num, fun _ => none, id⟩

private def ex56Im : PImg := ⟨c!"a.jpg", 40, 20, [(kType, .bytes b!"/XObject")]⟩
private def ex56Im2 : PImg := ⟨c!"b.jpg", 10, 10, [(kType, .bytes b!"/XObject"), (kFilter, .bytes b!"/DCTDecode")]⟩

set_option synthInstance.maxSize 1024

private def ex56 (l : List PdfOp) : Except PyErr (List (List Bytes × Rat × Rat) × List (Str × Nat)) :=
  (PdfD.history ex56E sampleFmt ⟨[], []⟩ c!"1.5" l).map fun r =>
    (r.2.doc.pages.map fun pg => (pg.stream.map Prod.snd, pg.x, pg.y), r.2.images)

/-- two images and one of them again, on two pages -/
example : ex56 [.page 100 200 10 10 10 10, .image ex56Im none none none none c!"bottom", .image ex56Im2 (some 5) (some 50) none (some 30) c!"next",
      .page 100 200 10 10 10 10, .image ex56Im (some 0) (some 60) (some 10) none c!"bottom"] =
    .ok ([([b!" q 80 0 0 40 10 190 cm /Im0 Do Q", b!" q 30 0 0 30 5 50 cm /Im1 Do Q"], 35, 150),
      ([b!" q 10 0 0 5 0 60 cm /Im0 Do Q"], 0, 145)], [(c!"a.jpg", 5), (c!"b.jpg", 6)]) := by decide +kernel

/-- C56 is violated: an image put at the cursor of a new page without margins is painted above the page, its lower edge is where its top
should be. -/
theorem C56_top_false : ex56 [.page 100 200 0 0 0 0, .image ex56Im none none none none c!"bottom"] =
    .ok ([([b!" q 100 0 0 50 0 200 cm /Im0 Do Q"], 0, 50)], [(c!"a.jpg", 5)]) := by decide +kernel

/-! ### C57: one object for each image -/

/-- C57: after any history, every image that was added (by itself or as a part of a box) has an object, the dict of which is that of the
first image added with its name; images have the same object only if they have the same name. -/
theorem C57_images (E : PdfEnv) (F : NumFmt) (hF : ∀ x, NumText (F.fmt x)) (p0 : FProc) (version : Str) (ops : List PdfOp)
    (p : FProc) (s : PdfD) (hh : PdfD.history E F p0 version ops = .ok (p, s)) :
    (∀ im ∈ ops.flatMap PdfOp.imgs, ∃ id first, dget im.name s.images = some id ∧ s.doc.base.dictAt id = some first.obj ∧
      ((ops.flatMap PdfOp.imgs).find? fun a => a.name = im.name) = some first) ∧
    (∀ n id, dget n s.images = some id → ∃ im ∈ ops.flatMap PdfOp.imgs, im.name = n) ∧
    ∀ n n' id, dget n s.images = some id → dget n' s.images = some id → n = n' := by
  obtain ⟨hi, hI⟩ := history_ok hF hh
  refine ⟨?_, ?_, hI.inj⟩
  · intro im him
    cases hf : (ops.flatMap PdfOp.imgs).find? fun a => a.name = im.name with
    | none =>
      rw [List.find?_eq_none] at hf
      exact absurd (hf im him) (by simp)
    | some a =>
      obtain ⟨id, h1, h2⟩ := hI.some_ _ _ hf
      exact ⟨id, a, h1, h2, rfl⟩
  · intro n id hn
    cases hf : (ops.flatMap PdfOp.imgs).find? fun a => a.name = n with
    | none =>
      have := hI.none_ _ hf
      rw [hn] at this
      cases this
    | some a => exact ⟨a, List.mem_of_find?_eq_some hf, by simpa using List.find?_some hf⟩

private def ex57 : Except PyErr (List (Str × Nat) × Option Nat) :=
  (PdfD.history ex56E sampleFmt ⟨[], []⟩ c!"1.5" [.page 100 200 0 0 0 0, .image ex56Im none none none none c!"bottom",
    .box ⟨[], [], [.image ex56Im2 0 0 10 10, .image ⟨c!"a.jpg", 7, 7, []⟩ 0 0 10 10], 20⟩ 100 c!"bottom"]).map
    fun r => (r.2.images, (r.2.doc.base.dictAt 5).map List.length)

/-- another picture under a name that is there is not looked at: the dict (with one entry) is that of the first -/
example : ex57 = .ok ([(c!"a.jpg", 5), (c!"b.jpg", 6)], some 1) := by decide +kernel

/-! ### C58: the cursor after a table or content box -/

/-- the default rectangle of a box reaches to the right and lower margins; the box begins where it was asked for, or at the cursor -/
theorem C58_rectangle (page : Page) (x y width height : Option Rat) :
    let r := page.positionAndSize x y width height
    r.1.1 = x.getD page.x ∧ page.height - r.1.2.1 = y.getD page.y ∧
      (width = none → r.1.1 + r.1.2.2.1 = page.width - page.marginRight) ∧ (∀ a, width = some a → r.1.2.2.1 = a) ∧
      (height = none → r.1.2.1 - r.1.2.2.2 = page.marginBottom) ∧ (∀ a, height = some a → r.1.2.2.2 = a) ∧
      r.2.x = r.1.1 ∧ r.2.yUp = r.1.2.1 := by
  intro r
  refine ⟨?_, ?_, ?_, ?_, ?_, ?_, ?_, ?_⟩
  · cases y <;> rfl
  · cases y
    · rfl
    · show page.height - (page.height - _) = _
      simp
  · rintro rfl
    cases y <;> simp [r, Page.positionAndSize, Page.setY]
  · rintro a rfl
    rfl
  · rintro rfl
    cases y <;> simp [r, Page.positionAndSize, Page.setY, Page.y]
  · rintro a rfl
    rfl
  · rfl
  · rfl

/-- C58 for boxes without parts: the cursor moves to the lower edge of the box (`bottom`) or to its right (`next`). Missing: boxes with
parts, where it ends lower (`C58_cursor_exact`, `C58_cursor_false`). -/
theorem C58_cursor_partial (E : PdfEnv) (F : NumFmt) (hF : ∀ x, NumText (F.fmt x)) (p0 : FProc) (version : Str) (ops : List PdfOp)
    (p p' : FProc) (s s' : PdfD) (hh : PdfD.history E F p0 version ops = .ok (p, s)) (b : BoxOut) (width : Rat) (move : Str)
    (hb : b.parts = []) (hg : s.addBox E F p b width move = .ok (p', s')) :
    ∃ pg pg', s.cur = some pg ∧ s'.cur = some pg' ∧ (move = c!"bottom" → pg'.x = pg.x ∧ pg'.y = pg.y + b.height) ∧
      (move = c!"next" → pg'.x = pg.x + width ∧ pg'.y = pg.y) := by
  obtain ⟨pg, pg', portions, g, a1, a2, a3, a4, a5, a6⟩ := box_did hF (history_ok hF hh).1 hg
  rw [hb] at a5 a6
  refine ⟨pg, pg', a1.before, a1.after, ?_, ?_⟩
  · rintro rfl
    refine ⟨by simpa using a5, ?_⟩
    have : pg'.yUp = pg.yUp - b.height := by simpa using a6
    unfold Page.y
    rw [this, a1.size.2.1]
    ring
  · rintro rfl
    refine ⟨by simpa using a5, ?_⟩
    have : pg'.yUp = pg.yUp := by simpa using a6
    unfold Page.y
    rw [this, a1.size.2.1]

/-- the height of a paragraph, nothing for an image -/
def PdfPart.parHeight : PdfPart → Rat
  | .paragraph _ _ _ height _ _ _ _ => height
  | .image .. => 0

/-- is it a paragraph? -/
def PdfPart.isPar : PdfPart → Prop
  | .paragraph .. => True
  | .image .. => False

theorem cursor_pars (l : List PdfPart) (hl : ∀ a ∈ l, a.isPar) (c : Rat × Rat) :
    l.foldl cursorStep c = (c.1, c.2 - (l.map PdfPart.parHeight).sum) := by
  induction l generalizing c with
  | nil => simp
  | cons a l ih =>
    rw [List.foldl_cons, ih (fun b hb => hl b (List.mem_cons_of_mem _ hb))]
    cases a with
    | paragraph =>
      simp only [cursorStep, PdfPart.parHeight, List.map_cons, List.sum_cons, Prod.mk.injEq, true_and]
      ring
    | image => exact absurd (hl _ List.mem_cons_self) (by simp [PdfPart.isPar])

/-- where the cursor really is after a box of paragraphs: below the box by the heights of all of them together -/
theorem C58_cursor_exact (E : PdfEnv) (F : NumFmt) (hF : ∀ x, NumText (F.fmt x)) (p0 : FProc) (version : Str) (ops : List PdfOp)
    (p p' : FProc) (s s' : PdfD) (hh : PdfD.history E F p0 version ops = .ok (p, s)) (b : BoxOut) (width : Rat)
    (hb : ∀ a ∈ b.parts, a.isPar) (hg : s.addBox E F p b width c!"bottom" = .ok (p', s')) :
    ∃ pg pg', s.cur = some pg ∧ s'.cur = some pg' ∧ pg'.x = pg.x ∧
      pg'.y = pg.y + b.height + (b.parts.map PdfPart.parHeight).sum := by
  obtain ⟨pg, pg', portions, g, a1, a2, a3, a4, a5, a6⟩ := box_did hF (history_ok hF hh).1 hg
  rw [cursor_pars _ hb] at a5 a6
  refine ⟨pg, pg', a1.before, a1.after, by simpa using a5, ?_⟩
  have : pg'.yUp = pg.yUp - (b.parts.map PdfPart.parHeight).sum - b.height := by simpa using a6
  unfold Page.y
  rw [this, a1.size.2.1]
  ring

/-- a page with a box of height 30 with two paragraphs of height 12 beside each other, and the cursor after it -/
private def ex58Box : BoxOut :=
  ⟨[], [], [.paragraph 0 200 50 12 c!" (a)Tj" [] [] [], .paragraph 50 200 50 12 c!" (b)Tj" [] [] []], 30⟩

/-- C58 is violated: after a box of height 30 at the top of a page the cursor is at 54. -/
theorem C58_cursor_false : ((ex56 [.page 100 200 0 0 0 0, .box ex58Box 100 c!"bottom"]).map fun r => r.1.map Prod.snd) = .ok [(0, 54)] := by
  decide +kernel

/-- a box without parts -/
example : ex56 [.page 100 200 0 0 0 0, .box ⟨[], [], [], 30⟩ 100 c!"bottom"] = .ok ([([[]], 0, 30)], []) := by decide +kernel

theorem positionAndSize_core (page : Page) (x y width height : Option Rat) (h : page.core.Ok) : (page.positionAndSize x y width height).2.core.Ok := by
  cases y <;> exact ⟨h.stream, h.names, h.mirror, h.ids⟩

theorem positionAndSize_height (page : Page) (x y width height : Option Rat) : (page.positionAndSize x y width height).2.height = page.height := by
  cases y <;> rfl

/-- C58 from the call on: a table or content box is run in the rectangle that was asked for, or that begins at the cursor and reaches to the margins, and
if it has no parts the cursor is then at the lower edge of that rectangle's box, or at its right -/
theorem C58_put (E : PdfEnv) (F : NumFmt) (hF : ∀ x, NumText (F.fmt x)) (p0 : FProc) (version : Str) (ops : List PdfOp)
    (p p' : FProc) (s s' : PdfD) (hh : PdfD.history E F p0 version ops = .ok (p, s)) (run : Rat → Rat → Rat → Rat → Except PyErr BoxOut)
    (x y width height : Option Rat) (move : Str) (hg : s.putBox E F p run x y width height move = .ok (p', s')) :
    ∃ pg pg' X Y W H b, s.cur = some pg ∧ s'.cur = some pg' ∧ run X Y W H = .ok b ∧ X = x.getD pg.x ∧ pg.height - Y = y.getD pg.y ∧
      (width = none → X + W = pg.width - pg.marginRight) ∧ (∀ a, width = some a → W = a) ∧
      (height = none → Y - H = pg.marginBottom) ∧ (∀ a, height = some a → H = a) ∧
      (b.parts = [] → (move = c!"bottom" → pg'.x = X ∧ pg'.y = y.getD pg.y + b.height) ∧
        (move = c!"next" → pg'.x = X + W ∧ pg'.y = y.getD pg.y)) := by
  have hi := (history_ok hF hh).1
  unfold PdfD.putBox at hg
  cases hp : s.doc.pages[s.doc.pageIndex]? with
  | none => rw [hp] at hg; cases hg
  | some pg =>
    rw [hp] at hg
    dsimp only at hg
    obtain ⟨r1, r2, r3, r4, r5, r6, r7, r8⟩ := C58_rectangle pg x y width height
    have r9 := positionAndSize_height pg x y width height
    have r10 := positionAndSize_core pg x y width height (hi.pages _ _ hp)
    generalize pg.positionAndSize x y width height = r at hg r1 r2 r3 r4 r5 r6 r7 r8 r9 r10
    obtain ⟨⟨X, Y, W, H⟩, q⟩ := r
    dsimp only at hg r1 r2 r3 r4 r5 r6 r7 r8 r9 r10
    cases hr : run X Y W H with
    | error e => rw [hr] at hg; cases hg
    | ok b =>
      rw [hr] at hg
      dsimp only at hg
      have hl : s.doc.pageIndex < s.doc.pages.length := (List.getElem?_eq_some_iff.1 hp).1
      have hq : ({ s with doc := s.doc.onPage fun _ => q } : PdfD).cur = some q := by
        simp [PdfD.cur, PdfT.onPage, List.getElem?_modify, hp]
      have hi' : ({ s with doc := s.doc.onPage fun _ => q } : PdfD).Inv := by
        refine ⟨hi.wf, fun i g hg => ?_⟩
        simp only [PdfT.onPage, List.getElem?_modify] at hg
        cases hs : s.doc.pages[i]? with
        | none => rw [hs] at hg; simp at hg
        | some g0 =>
          rw [hs] at hg
          by_cases e : s.doc.pageIndex = i
          · simp [e] at hg; rw [← hg]; exact r10
          · simp [e] at hg; rw [← hg]; exact hi.pages _ _ hs
      obtain ⟨g, pg', portions, gr, a1, a2, a3, a4, a5, a6⟩ := box_did hF hi' hg
      obtain rfl : q = g := by have := hq.symm.trans a1.before; simpa using this
      refine ⟨pg, pg', X, Y, W, H, b, hp, a1.after, hr, r1, r2, r3, r4, r5, r6, ?_⟩
      intro hb
      rw [hb] at a5 a6
      rw [← r2]
      refine ⟨?_, ?_⟩
      · rintro rfl
        refine ⟨by simpa [r7] using a5, ?_⟩
        have h2 : pg'.yUp = q.yUp - b.height := by simpa using a6
        unfold Page.y
        rw [h2, a1.size.2.1, r8, r9]
        ring
      · rintro rfl
        refine ⟨by simpa [r7] using a5, ?_⟩
        have h2 : pg'.yUp = q.yUp := by simpa using a6
        unfold Page.y
        rw [h2, a1.size.2.1, r8, r9]

/-- a box without parts of height 30, asked for at 20 from the left: it gets the rest of the line, and the cursor is at its right -/
example : ((PdfD.history ex56E sampleFmt ⟨[], []⟩ c!"1.5" [.page 100 200 10 20 5 15]).toOption.bind fun r =>
    (r.2.putBox ex56E sampleFmt r.1 (fun x y w h => if (x, y, w, h) = (20, 190, 65, 170) then .ok ⟨[], [], [], 30⟩ else .error .typeError) (some 20) none none none
      c!"next").toOption.bind fun q => q.2.cur.map fun pg => (pg.x, pg.y)) = some (85, 10) := by decide +kernel

/-- a rectangle given partly -/
example : ((Page.new 3 100 200 10 20 5 15).positionAndSize none (some 40) none none).1 = (5, 160, 80, 140) := by decide +kernel

/-! ### C59: what is painted of a box -/

/-- C59: after any history, a box puts into the stream of the current page, after what is there, its fills and lines, and then one portion
for each of its parts in their order: a paragraph with its graphics and its text at its place, an image painted with its size at its place
from the object of its name. The stream of no other page changes. -/
theorem C59_parts (E : PdfEnv) (F : NumFmt) (hF : ∀ x, NumText (F.fmt x)) (p0 : FProc) (version : Str) (ops : List PdfOp)
    (p p' : FProc) (s s' : PdfD) (hh : PdfD.history E F p0 version ops = .ok (p, s)) (b : BoxOut) (width : Rat) (move : Str)
    (hg : s.addBox E F p b width move = .ok (p', s')) :
    ∃ (pg pg' : Page) (g : Str) (portions : List Bytes), s.cur = some pg ∧ s'.cur = some pg' ∧ createGraphics F (b.fills ++ b.lines) = .ok g ∧
      pg'.stream.map Prod.snd = pg.stream.map Prod.snd ++ bytesOf g :: portions ∧
      List.Forall₂ (PartShown F pg'.xres s'.images) b.parts portions ∧
      ∀ j, j ≠ s.doc.pageIndex → (s'.doc.pages[j]?).map Page.core = (s.doc.pages[j]?).map Page.core := by
  obtain ⟨pg, pg', portions, g, a1, a2, a3, a4, a5, a6⟩ := box_did hF (history_ok hF hh).1 hg
  exact ⟨pg, pg', g, portions, a1.before, a1.after, a2, a3, a4, a1.others⟩

private def ex59Red : PDFColor Rat := ⟨some [1, 0, 0], false⟩

/-- a box with a fill, a line, a paragraph and an image -/
example : ex56 [.page 100 200 0 0 0 0, .text 0 150 100 10 c!" (x)Tj" [] [] [] c!"bottom",
      .box ⟨[.fill ex59Red 0 0 10 10], [], [.paragraph 0 200 50 12 c!" (a)Tj" c!" 1 g" [] [], .image ex56Im 60 170 40 20], 30⟩ 100 c!"bottom"] =
    .ok ([([b!" BT 1 0 0 1 0 150 Tm (x)Tj ET", b!" q 1 0 0 rg 0 0 10 10 re F Q", b!" q 1 0 0 1 0 200 cm 1 g Q BT 1 0 0 1 0 200 Tm (a)Tj ET",
      b!" q 40 0 0 20 60 170 cm /Im0 Do Q"], 60, 80)], [(c!"a.jpg", 5)]) := by decide +kernel

end Verif
