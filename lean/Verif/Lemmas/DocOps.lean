import Verif.Lemmas.PdfOutput
import Verif.Spec.DocShown
/-! Lemmas for C65: the pages, links, labels and outline of a document from the operations on it. -/
namespace Verif
open Spec

/-- the paragraphs placed by an operation on the page with index `i` -/
def opPlaces (i : Nat) : PdfOp → List Place
  | .text x y _ _ _ _ _ ids _ => [⟨i, x, y, ids⟩]
  | .box b _ _ => b.parts.filterMap fun
    | .paragraph x y _ _ _ _ _ ids => some ⟨i, x, y, ids⟩
    | .image .. => none
  | _ => []

/-- the paragraphs placed by operations; `n` pages are there before -/
def docPlaces : Nat → List PdfOp → List Place
  | _, [] => []
  | n, .page .. :: l => docPlaces (n + 1) l
  | n, o :: l => opPlaces (n - 1) o ++ docPlaces n l

/-- the sizes of the pages that are added -/
def docSizes : List PdfOp → List (Rat × Rat)
  | [] => []
  | .page w h _ _ _ _ :: l => (w, h) :: docSizes l
  | _ :: l => docSizes l

/-- the images that are used -/
def docImages : List PdfOp → List PImg
  | [] => []
  | .image im _ _ _ _ _ :: l => im :: docImages l
  | .box b _ _ :: l => (b.parts.filterMap fun
    | .image im _ _ _ _ => some im
    | .paragraph .. => none) ++ docImages l
  | _ :: l => docImages l

/-- pages and outlines are left alone -/
structure Calm (s s' : PdfT) : Prop where
  pages : s'.pages.map (fun p => (p.objId, p.width, p.height)) = s.pages.map fun p => (p.objId, p.width, p.height)
  index : s'.pageIndex = s.pageIndex
  outlines : s'.outlines = s.outlines

theorem Calm.refl (s : PdfT) : Calm s s := ⟨rfl, rfl, rfl⟩
theorem Calm.trans {a b c : PdfT} (h : Calm a b) (h' : Calm b c) : Calm a c :=
  ⟨h'.pages.trans h.pages, h'.index.trans h.index, h'.outlines.trans h.outlines⟩

theorem Calm.onPage (s : PdfT) {f : Page → Page} (hf : ∀ p, ((f p).objId, (f p).width, (f p).height) = (p.objId, p.width, p.height)) :
    Calm s (s.onPage f) := ⟨map_modify_same _ f hf _ _, rfl, rfl⟩

theorem Calm.setPage {s : PdfT} {pg pg' : Page} (h : s.pages[s.pageIndex]? = some pg)
    (h1 : (pg'.objId, pg'.width, pg'.height) = (pg.objId, pg.width, pg.height)) : Calm s (s.onPage fun _ => pg') := by
  refine ⟨?_, rfl, rfl⟩
  show (s.pages.modify s.pageIndex _).map _ = _
  apply List.ext_getElem?
  intro j
  rw [List.getElem?_map, List.getElem?_map, List.getElem?_modify]
  by_cases hj : s.pageIndex = j
  · subst hj
    rw [h]
    simpa using h1
  · cases s.pages[j]? <;> simp [hj]

theorem addOrGetFont_calm {E : PdfEnv} {p p' : FProc} {s s' : PdfT} {k : FKey} {r : Str × Nat}
    (h : s.addOrGetFont E p k = .ok (r, p', s')) : Calm s s' := by
  unfold PdfT.addOrGetFont at h
  split at h
  · cases h; exact .refl _
  · split at h
    · cases h
    · split at h
      · cases h
      · cases h; exact ⟨rfl, rfl, rfl⟩

theorem usedFont_calm {E : PdfEnv} {p p' : FProc} {s s' : PdfT} {k : FKey} (h : s.usedFont E p k = .ok (p', s')) : Calm s s' := by
  unfold PdfT.usedFont at h
  split at h
  · cases h
  · rename_i hf
    split at h
    · cases h
    · cases h
      exact (addOrGetFont_calm hf).trans (.onPage _ fun _ => rfl)

theorem usedFonts_calm {E : PdfEnv} : ∀ (l : List FKey) {p p' : FProc} {s s' : PdfT}, s.usedFonts E l p = .ok (p', s') → Calm s s' := by
  intro l
  induction l with
  | nil => intro p p' s s' h; cases h; exact .refl _
  | cons k l ih =>
    intro p p' s s' h
    simp only [PdfT.usedFonts] at h
    split at h
    · cases h
    · rename_i h1
      exact (usedFont_calm h1).trans (ih h)

theorem foldl_addAnnot_calm (g : IdRect → Annot) (l : List IdRect) (p : Page) :
    ((l.foldl (fun p r => p.addAnnot (g r)) p).objId, (l.foldl (fun p r => p.addAnnot (g r)) p).width,
      (l.foldl (fun p r => p.addAnnot (g r)) p).height) = (p.objId, p.width, p.height) := by
  induction l generalizing p with
  | nil => rfl
  | cons a l ih => simp only [List.foldl_cons]; rw [ih]; rfl

theorem insertAll_append {l m r : List Outline} : ∀ {a b : List (Int × Str × Str)}, insertAll l a = .ok m → insertAll m b = .ok r →
    insertAll l (a ++ b) = .ok r := by
  intro a
  induction a generalizing l with
  | nil => intro b h h'; cases h; exact h'
  | cons x a ih =>
    intro b h h'
    obtain ⟨lv, t, lb⟩ := x
    simp only [insertAll, List.cons_append] at h ⊢
    split at h
    · cases h
    · exact ih h h'

/-- pages are left alone, the outline items are inserted -/
structure Stirs (s s' : PdfT) (items : List (Int × Str × Str)) : Prop where
  pages : s'.pages.map (fun p => (p.objId, p.width, p.height)) = s.pages.map fun p => (p.objId, p.width, p.height)
  index : s'.pageIndex = s.pageIndex
  outlines : insertAll s.outlines items = .ok s'.outlines

theorem Calm.stirs {s s' : PdfT} (h : Calm s s') : Stirs s s' [] := ⟨h.pages, h.index, by rw [h.outlines]; rfl⟩
theorem Stirs.trans {a b c : PdfT} {i j} (h : Stirs a b i) (h' : Stirs b c j) : Stirs a c (i ++ j) :=
  ⟨h'.pages.trans h.pages, h'.index.trans h.index, insertAll_append h.outlines h'.outlines⟩

theorem outlineData_none {id q x : Str} {a b : Char} (h : afterPrefix (a :: b :: q) id = some x) (hab : a ≠ '$' ∨ b ≠ 'o') :
    outlineData id = none := by
  unfold outlineData
  rw [if_neg]
  intro hp
  rw [afterPrefix_eq] at h
  split at h
  · rename_i h1
    obtain ⟨t, rfl⟩ := List.isPrefixOf_iff_prefix.1 h1
    obtain ⟨u, hu⟩ := List.isPrefixOf_iff_prefix.1 hp
    simp only [List.cons_append, List.cons.injEq] at hu
    rcases hab with hab | hab
    · exact hab hu.1.symm
    · exact hab hu.2.1.symm
  · cases h

theorem addId_stirs {E : PdfEnv} {s s' : PdfT} {page : Page} {x y : Rat} {id : Str} {rects : List IdRect}
    (h : s.addId E page x y id rects = .ok s') : Stirs s s' (idOutlines E.json [(id, rects)]) := by
  have hno : outlineData id = none → idOutlines E.json [(id, rects)] = [] := by
    intro h
    simp only [idOutlines, List.filterMap_cons, h]
    split <;> simp_all
  unfold PdfT.addId at h
  split at h
  · cases h
    exact (Calm.refl s).stirs
  · rename_i d t
    split at h
    · rename_i name hn
      rw [hno (outlineData_none hn (.inr (by decide)))]
      unfold PdfT.addLabel at h
      split at h
      · cases h
      · cases h; exact ⟨rfl, rfl, rfl⟩
    · split at h
      · rename_i name hn
        rw [hno (outlineData_none hn (.inr (by decide)))]
        cases h
        exact (Calm.onPage s fun p => foldl_addAnnot_calm (fun r => .dest name (placeRect E.rnd x y r)) _ p).stirs
      · split at h
        · rename_i link hn
          rw [hno (outlineData_none hn (.inr (by decide)))]
          cases h
          have h1 : Calm s (s.uriId link).2 := by
            unfold PdfT.uriId
            split <;> exact ⟨rfl, rfl, rfl⟩
          exact (h1.trans (Calm.onPage _ fun p => foldl_addAnnot_calm (fun r => .link _ (placeRect E.rnd x y r)) _ p)).stirs
        · split at h
          · rename_i data hd
            rw [afterPrefix_eq] at hd
            split at hd
            · rename_i hp
              have hda : outlineData id = some data := by
                unfold outlineData; rw [if_pos hp]; exact hd
              unfold PdfT.addOutline at h
              split at h
              · cases h
              · rename_i level text label hj
                split at h
                · cases h
                · rename_i o ho
                  cases h
                  refine ⟨rfl, rfl, ?_⟩
                  have : idOutlines E.json [(id, d :: t)] = [(level, text, label)] := by
                    simp [idOutlines, hda, hj]
                  rw [this]
                  simp only [insertAll, ho]
            · cases hd
          · rename_i hd
            cases h
            rw [hno]
            · exact (Calm.refl s).stirs
            · rw [afterPrefix_eq] at hd
              split at hd
              · cases hd
              · rename_i hp
                unfold outlineData; rw [if_neg hp]

theorem addIds_stirs {E : PdfEnv} {page : Page} {x y : Rat} : ∀ (l : List (Str × List IdRect)) {s s' : PdfT},
    s.addIds E page x y l = .ok s' → Stirs s s' (idOutlines E.json l) := by
  intro l
  induction l with
  | nil => intro s s' h; cases h; exact (Calm.refl s).stirs
  | cons a l ih =>
    intro s s' h
    obtain ⟨id, rects⟩ := a
    simp only [PdfT.addIds] at h
    split at h
    · cases h
    · rename_i h1
      have : idOutlines E.json ((id, rects) :: l) = idOutlines E.json [(id, rects)] ++ idOutlines E.json l := by
        unfold idOutlines
        rw [← List.filterMap_append]; rfl
      rw [this]
      exact (addId_stirs h1).trans (ih h)

theorem movePage_calm (move : Str) (w h : Rat) (p : Page) :
    ((movePage move w h p).objId, (movePage move w h p).width, (movePage move w h p).height) = (p.objId, p.width, p.height) := by
  unfold movePage
  simp only
  split <;> split <;> rfl

theorem addStr_calm {p p' : Page} {t : Str} {n : Nat} (h : p.addStr t = .ok (n, p')) :
    (p'.objId, p'.width, p'.height) = (p.objId, p.width, p.height) := by
  unfold Page.addStr at h
  split at h
  · cases h; rfl
  · cases h

theorem addText_stirs {E : PdfEnv} {F : NumFmt} {p p' : FProc} {s s' : PdfT} {x y width height : Rat} {text graphics : Str}
    {used : List FKey} {ids : List (Str × List IdRect)} {move : Str}
    (h : s.addText E F p x y width height text graphics used ids move = .ok (p', s')) : Stirs s s' (idOutlines E.json ids) := by
  unfold PdfT.addText at h
  split at h
  · cases h
  · rename_i page hpage
    split at h
    · cases h
    · rename_i hstr
      split at h
      · cases h
      · rename_i hu
        split at h
        · cases h
        · rename_i hids
          cases h
          have h1 := ((Calm.setPage hpage (addStr_calm hstr)).trans (usedFonts_calm _ hu)).stirs
          have h2 := (h1.trans (addIds_stirs _ hids)).trans (Calm.onPage _ fun p => movePage_calm move width height p).stirs
          simpa using h2

/-- the document and what was asked for -/
structure OpsInv (E : PdfEnv) (s : PdfT) (sizes : List (Rat × Rat)) (places : List Place) : Prop where
  puts : ∃ puts : List Put, LinkInv E.rnd s puts ∧ puts.map (fun p => (⟨p.page, p.x, p.y, p.ids⟩ : Place)) = places ∧
    ∀ p ∈ puts, (s.pages[p.page]?).map (fun pg => (pg.objId, pg.width)) = some (p.objId, p.width)
  sizes : s.pages.map (fun p => (p.width, p.height)) = sizes
  index : s.pageIndex = s.pages.length - 1
  outlines : insertAll [] (outlinesOf E.json places) = .ok s.outlines

theorem pages_info {s s' : PdfT} (h : s'.pages.map (fun p => (p.objId, p.width, p.height)) = s.pages.map fun p => (p.objId, p.width, p.height)) :
    s'.pages.map (fun p => (p.width, p.height)) = s.pages.map (fun p => (p.width, p.height)) ∧ s'.pages.length = s.pages.length ∧
    ∀ i : Nat, (s'.pages[i]?).map (fun pg : Page => (pg.objId, pg.width)) = (s.pages[i]?).map fun pg : Page => (pg.objId, pg.width) := by
  refine ⟨?_, ?_, fun i => ?_⟩
  · have := congrArg (List.map Prod.snd) h
    simpa [List.map_map, Function.comp_def] using this
  · have := congrArg List.length h
    simpa using this
  · have := congrArg (·[i]?) h
    simp only [List.getElem?_map] at this
    have := congrArg (Option.map fun t : Nat × Rat × Rat => (t.1, t.2.1)) this
    simpa [Option.map_map, Function.comp_def] using this

theorem OpsInv.calm {E : PdfEnv} {s s' : PdfT} {sizes places} (h : OpsInv E s sizes places) (hc : Calm s s') (hq : Quiet s s') :
    OpsInv E s' sizes places := by
  obtain ⟨i1, i2, i3⟩ := pages_info hc.pages
  obtain ⟨puts, p1, p2, p3⟩ := h.puts
  refine ⟨⟨puts, hq.inv p1, p2, fun p hp => by rw [i3]; exact p3 p hp⟩, i1.trans h.sizes, ?_, by rw [hc.outlines]; exact h.outlines⟩
  rw [hc.index, h.index, i2]

theorem OpsInv.text {E : PdfEnv} {F : NumFmt} {p p' : FProc} {s s' : PdfT} {sizes places} (h : OpsInv E s sizes places)
    {x y width height : Rat} {text graphics : Str} {used : List FKey} {ids : List (Str × List IdRect)} {move : Str}
    (hg : s.addText E F p x y width height text graphics used ids move = .ok (p', s')) :
    OpsInv E s' sizes (places ++ [⟨sizes.length - 1, x, y, ids⟩]) := by
  obtain ⟨pg, hpg⟩ : ∃ pg, s.pages[s.pageIndex]? = some pg := by
    unfold PdfT.addText at hg
    split at hg
    · cases hg
    · exact ⟨_, by assumption⟩
  have hc := addText_stirs hg
  obtain ⟨i1, i2, i3⟩ := pages_info hc.pages
  obtain ⟨puts, p1, p2, p3⟩ := h.puts
  have hi : s.pageIndex = sizes.length - 1 := by rw [h.index, ← h.sizes, List.length_map]
  refine ⟨⟨_, p1.addText hpg hg, ?_, ?_⟩, i1.trans h.sizes, by rw [hc.index, h.index, i2], ?_⟩
  · rw [List.map_append, p2, ← hi]; rfl
  · intro q hq
    rw [i3]
    rcases List.mem_append.1 hq with hq | hq
    · exact p3 q hq
    · simp only [List.mem_singleton] at hq
      subst hq
      simp only [hpg, Option.map_some]
  · have : outlinesOf E.json (places ++ [⟨sizes.length - 1, x, y, ids⟩]) = outlinesOf E.json places ++ idOutlines E.json ids := by
      simp [outlinesOf]
    rw [this]
    exact insertAll_append h.outlines hc.outlines

theorem registerImage_calm (p : Page) (id : Nat) : ((p.registerImage id).annots, (p.registerImage id).objId, (p.registerImage id).width, (p.registerImage id).height) =
    (p.annots, p.objId, p.width, p.height) := by
  unfold Page.registerImage
  split <;> rfl

theorem OpsInv.image {E : PdfEnv} {F : NumFmt} {s s' : PdfD} {sizes places} (hi : OpsInv E s.doc sizes places) {im : PImg} {x y w h : Option Rat} {move : Str}
    (him : ¬ isAction im.obj) (hg : s.addImage F im x y w h move = .ok s') : OpsInv E s'.doc sizes places := by
  have h0 : OpsInv E (s.imageObj im).2.doc sizes places := by
    obtain ⟨puts, p1, -⟩ := hi.puts
    unfold PdfD.imageObj
    split
    · exact hi
    · exact hi.calm ⟨rfl, rfl, rfl⟩ ⟨rfl, rfl, Grows.add p1.wf im.obj, fun id d' hd' ha => acts_add p1.wf him hd' ha, rfl, rfl⟩
  unfold PdfD.addImage at hg
  simp only at hg
  split at hg
  · cases hg
  · rename_i page hpage
    split at hg
    · cases hg
    · split at hg
      · cases hg
      · rename_i q hq
        cases hg
        have hinfo : (q.annots, q.objId, q.width, q.height) = (page.annots, page.objId, page.width, page.height) := by
          unfold Page.addImage at hq
          simp only at hq
          split at hq
          · cases hq
          · split at hq
            · rename_i hr
              cases hq
              have a := addStr_calm hr
              have b := (addStr_info hr).2
              have c := registerImage_calm ({ page with x := x.getD page.x, yUp := y.getD page.yUp } : Page) (s.imageObj im).1
              simp only [Prod.mk.injEq] at a c ⊢
              exact ⟨b.trans c.1, a.1.trans c.2.1, a.2.1.trans c.2.2.1, a.2.2.trans c.2.2.2⟩
            · cases hq
        simp only [Prod.mk.injEq] at hinfo
        have hm := movePage_calm move
        obtain ⟨puts, p1, -⟩ := h0.puts
        refine h0.calm (Calm.setPage hpage ?_) ?_
        · rw [movePage_calm]
          simp [hinfo]
        · refine ⟨rfl, rfl, ⟨p1.wf, le_refl _, fun _ _ h => h⟩, fun _ _ h _ => h, ?_, rfl⟩
          show ((s.imageObj im).2.doc.pages.modify (s.imageObj im).2.doc.pageIndex _).map _ = _
          apply List.ext_getElem?
          intro j
          rw [List.getElem?_map, List.getElem?_map, List.getElem?_modify]
          by_cases hj : (s.imageObj im).2.doc.pageIndex = j
          · subst hj
            rw [hpage]
            simp only [if_true, Option.map_eq_map, Option.map_some, Option.some.injEq]
            rw [movePage_quiet]
            simp [hinfo]
          · cases (s.imageObj im).2.doc.pages[j]? <;> simp [hj]

theorem OpsInv.move {E : PdfEnv} {s : PdfT} {sizes places} (h : OpsInv E s sizes places) (move : Str) (a b : Rat) :
    OpsInv E (s.onPage (movePage move a b)) sizes places := by
  obtain ⟨puts, p1, -⟩ := h.puts
  exact h.calm (.onPage _ fun p => movePage_calm _ _ _ p) (.onPage p1.wf (movePage_quiet move a b))

theorem OpsInv.parts {E : PdfEnv} {F : NumFmt} {sizes} : ∀ (l : List PdfPart) {p p' : FProc} {s s' : PdfD} {places}, OpsInv E s.doc sizes places →
    (∀ im x y w h, PdfPart.image im x y w h ∈ l → ¬ isAction im.obj) → s.addParts E F l p = .ok (p', s') →
    OpsInv E s'.doc sizes (places ++ l.filterMap fun
      | .paragraph x y _ _ _ _ _ ids => some ⟨sizes.length - 1, x, y, ids⟩
      | .image .. => none) := by
  intro l
  induction l with
  | nil => intro p p' s s' places hi _ h; cases h; simpa using hi
  | cons a l ih =>
    intro p p' s s' places hi him h
    simp only [PdfD.addParts] at h
    split at h
    · cases h
    · rename_i r hr
      cases a with
      | paragraph x y width height text graphics used ids =>
        simp only [PdfD.addPart] at hr
        cases ht : s.doc.addText E F p x y width height text graphics used ids c!"bottom" with
        | error e => rw [ht] at hr; cases hr
        | ok t =>
          rw [ht] at hr
          cases hr
          have := ih (hi.text ht) (fun im x y w h hm => him im x y w h (by simp [hm])) h
          simpa using this
      | image im x y width height =>
        simp only [PdfD.addPart] at hr
        cases ht : s.addImage F im (some x) (some y) (some width) (some height) c!"bottom" with
        | error e => rw [ht] at hr; cases hr
        | ok t =>
          rw [ht] at hr
          cases hr
          have := ih (hi.image (him im x y width height (by simp)) ht) (fun im x y w h hm => him im x y w h (by simp [hm])) h
          simpa using this

theorem OpsInv.box {E : PdfEnv} {F : NumFmt} {p p' : FProc} {s s' : PdfD} {sizes places} (hi : OpsInv E s.doc sizes places) {b : BoxOut} {width : Rat}
    {move : Str} (him : ∀ im x y w h, PdfPart.image im x y w h ∈ b.parts → ¬ isAction im.obj)
    (h : s.addBox E F p b width move = .ok (p', s')) : OpsInv E s'.doc sizes (places ++ opPlaces (sizes.length - 1) (.box b width move)) := by
  unfold PdfD.addBox at h
  split at h
  · cases h
  · rename_i s1 h1
    split at h
    · cases h
    · rename_i r hr
      cases h
      refine OpsInv.move (OpsInv.parts _ ?_ him hr) _ _ _
      unfold PdfD.addGraphics at h1
      split at h1
      · cases h1
      · split at h1
        · cases h1
        · rename_i page hpage
          split at h1
          · cases h1
          · rename_i t ht
            cases h1
            obtain ⟨puts, p1, -⟩ := hi.puts
            refine hi.calm (Calm.setPage hpage (addStr_calm ht)) ?_
            refine ⟨rfl, rfl, ⟨p1.wf, le_refl _, fun _ _ h => h⟩, fun _ _ h _ => h, ?_, rfl⟩
            show (s.doc.pages.modify s.doc.pageIndex _).map _ = _
            apply List.ext_getElem?
            intro j
            rw [List.getElem?_map, List.getElem?_map, List.getElem?_modify]
            by_cases hj : s.doc.pageIndex = j
            · subst hj
              rw [hpage]
              have a := addStr_calm ht
              have c := (addStr_info ht).2
              simp only [Prod.mk.injEq] at a
              simp [a, c]
            · cases s.doc.pages[j]? <;> simp [hj]

theorem OpsInv.page {E : PdfEnv} {s : PdfT} {sizes places} (hi : OpsInv E s sizes places) (w h top bottom left right : Rat) :
    OpsInv E (s.addPage w h top bottom left right) (sizes ++ [(w, h)]) places := by
  obtain ⟨puts, p1, p2, p3⟩ := hi.puts
  have hl : LinkInv E.rnd (s.addPage w h top bottom left right) puts :=
    LinkInv.op (F := sampleFmt) (w := ⟨⟨[], []⟩, s, puts⟩) p1 (.newPage w h top bottom left right) (by intro d e; cases e) rfl
  refine ⟨⟨puts, hl, p2, fun p hp => ?_⟩, ?_, ?_, hi.outlines⟩
  · simp only [PdfT.addPage]
    rw [List.getElem?_append_left (p1.bound p hp)]
    exact p3 p hp
  · simp [PdfT.addPage, hi.sizes, Page.new, Page.goToBeginning]
  · simp [PdfT.addPage]

theorem OpsInv.ops {E : PdfEnv} {F : NumFmt} : ∀ (l : List PdfOp) {r r' : FProc × PdfD} {sizes places}, OpsInv E r.2.doc sizes places →
    (∀ im ∈ docImages l, ¬ isAction im.obj) → PdfD.ops E F l r = .ok r' →
    OpsInv E r'.2.doc (sizes ++ docSizes l) (places ++ docPlaces sizes.length l) := by
  intro l
  induction l with
  | nil => intro r r' sizes places hi _ h; cases h; simpa [docSizes, docPlaces] using hi
  | cons o l ih =>
    intro r r' sizes places hi him h
    simp only [PdfD.ops] at h
    split at h
    · cases h
    · rename_i r1 h1
      cases o with
      | page a b c d e f =>
        cases h1
        have := ih (hi.page a b c d e f) (fun im hm => him im (by simpa [docImages] using hm)) h
        simpa [docSizes, docPlaces] using this
      | text x y width height text graphics used ids move =>
        simp only [PdfD.op] at h1
        cases ht : r.2.doc.addText E F r.1 x y width height text graphics used ids move with
        | error e => rw [ht] at h1; cases h1
        | ok t =>
          rw [ht] at h1
          cases h1
          have := ih (hi.text ht) (fun im hm => him im (by simpa [docImages] using hm)) h
          simpa [docSizes, docPlaces, opPlaces] using this
      | image im x y width height move =>
        simp only [PdfD.op] at h1
        cases ht : r.2.addImage F im x y width height move with
        | error e => rw [ht] at h1; cases h1
        | ok t =>
          rw [ht] at h1
          cases h1
          have := ih (hi.image (him im (by simp [docImages])) ht) (fun im hm => him im (by simp [docImages, hm])) h
          simpa [docSizes, docPlaces, opPlaces] using this
      | box b width move =>
        have hb := hi.box (fun im x y w h hm => him im (by
          simp only [docImages, List.mem_append, List.mem_filterMap]
          exact .inl ⟨_, hm, rfl⟩)) h1
        have := ih hb (fun im hm => him im (by simp [docImages, hm])) h
        simpa [docSizes, docPlaces] using this

theorem OpsInv.history {E : PdfEnv} {F : NumFmt} {p p' : FProc} {version : Str} {ops : List PdfOp} {s : PdfD}
    (him : ∀ im ∈ docImages ops, ¬ isAction im.obj)
    (h : PdfD.history E F p version ops = .ok (p', s)) : OpsInv E s.doc (docSizes ops) (docPlaces 0 ops) := by
  unfold PdfD.history at h
  split at h
  · cases h
  · rename_i r0 hn
    have h0 : OpsInv E r0.2 [] [] := by
      unfold PdfT.new at hn
      have hw : (Base.new version []).Wf := by simp [Base.Wf, Base.new]
      have hi : LinkInv E.rnd (PdfT.init version) [] := by
        refine ⟨hw.addDict _, by simp [PdfT.init], by simp, by simp [linksOf], by simp [PdfT.init, dget], ?_, by simp [PdfT.init, dget, labelDests]⟩
        intro id d hd ha
        have hd' : ((Base.new version []).addDict [(kType, .bytes b!"/Catalog")]).2.dictAt id = some d := hd
        rcases font_dicts_add hw _ hd' with ⟨_, rfl⟩ | hd'
        · simp [isAction, dget] at ha
        · cases id <;> simp [Base.dictAt, Base.new] at hd'
      have hi0 : OpsInv E (PdfT.init version) [] [] := ⟨⟨[], hi, rfl, by simp⟩, rfl, rfl, rfl⟩
      cases hf : (PdfT.init version).addOrGetFont E p (c!"Helvetica", c!"n") with
      | error e => rw [hf] at hn; cases hn
      | ok r =>
        rw [hf] at hn
        cases hn
        exact hi0.calm (addOrGetFont_calm hf) (addOrGet_quiet hi.wf hf)
    have := OpsInv.ops ops (r' := (p', s)) h0 him h
    simpa using this

end Verif
