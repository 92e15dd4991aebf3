import Verif.Model.PdfOutput
import Verif.Lemmas.ReadDoc
import Verif.Props.C56_C59_Parts
/-! Lemmas for C65: what is known of the objects of a document after any history. -/
namespace Verif
open Spec

/-- dicts are added, nothing else changes -/
def Ext (b b' : Base) : Prop := ∃ l : List (List (Key × Obj)), b' = l.foldl (fun b d => (b.addDict d).2) b

theorem Ext.refl (b : Base) : Ext b b := ⟨[], rfl⟩
theorem Ext.add (b : Base) (d) : Ext b (b.addDict d).2 := ⟨[d], rfl⟩
theorem Ext.trans {a b c : Base} : Ext a b → Ext b c → Ext a c := by
  rintro ⟨l, rfl⟩ ⟨m, rfl⟩
  exact ⟨l ++ m, by rw [List.foldl_append]⟩

theorem Ext.grows {b b' : Base} (h : Ext b b') (hw : b.Wf) : Grows b b' ∧ b'.trailer = b.trailer := by
  obtain ⟨l, rfl⟩ := h
  induction l generalizing b with
  | nil => exact ⟨⟨hw, le_refl _, fun _ _ h => h⟩, rfl⟩
  | cons d l ih =>
    obtain ⟨h1, h2⟩ := ih (hw.addDict d)
    exact ⟨(Grows.add hw d).trans h1, h2⟩

theorem addFontObj_ext {num : Rat → Obj} {files : FontFiles} {b b' : Base} {f : Font} {id : Nat}
    (h : addFontObj num files b f = .ok (id, b')) : Ext b b' := by
  unfold addFontObj at h
  split at h
  · simp only [Except.ok.injEq] at h
    have e := congrArg Prod.snd h
    simp only at e
    rw [← e]
    exact .add _ _
  · split at h
    · cases h
    · simp only [Except.ok.injEq] at h
      have e := congrArg Prod.snd h
      simp only at e
      rw [← e]
      unfold addTTFont
      simp only
      exact ((((Ext.add _ _).trans (.add _ _)).trans (.add _ _)).trans (.add _ _)).trans (.add _ _)

/-- the dicts of a new page -/
def freshStream : List (Key × Obj) := [(kFilter, .bytes b!"/FlateDecode"), (kStream, .dict [])]
def freshPage (stream : Nat) : List (Key × Obj) := [(kType, .bytes b!"/Page"), (kContents, .ref stream), (kResources, .dict [])]
def freshCatalog : List (Key × Obj) := [(kType, .bytes b!"/Catalog")]

/-- what is known of the objects of a document -/
structure OutInv (s : PdfT) : Prop where
  wf : s.base.Wf
  trailer : s.base.trailer = [(.str c!"Root", .ref 1)]
  catalog : s.base.dictAt 1 = some freshCatalog
  nodup : (s.pages.map Page.objId).Nodup
  page : ∀ n ∈ s.pages.map Page.objId, s.base.dictAt n = some (freshPage (n - 1)) ∧ s.base.dictAt (n - 1) = some freshStream
  dests : (s.dests.map Prod.fst).Nodup
  destPage : ∀ e ∈ s.dests, e.2.page ∈ s.pages.map Page.objId
  uris : ∀ l n, dget l s.uris = some n → s.base.dictAt n = some (actionDict l)
  links : ∀ p ∈ s.pages, ∀ id r, Annot.link id r ∈ p.annots → ∃ l, dget l s.uris = some id

/-- a step that leaves labels and links alone -/
structure Hush (s s' : PdfT) : Prop where
  ext : Ext s.base s'.base
  pages : s'.pages.map (fun p => (p.objId, p.annots)) = s.pages.map fun p => (p.objId, p.annots)
  dests : s'.dests = s.dests
  uris : s'.uris = s.uris

theorem Hush.refl (s : PdfT) : Hush s s := ⟨.refl _, rfl, rfl, rfl⟩
theorem Hush.trans {a b c : PdfT} (h : Hush a b) (h' : Hush b c) : Hush a c :=
  ⟨h.ext.trans h'.ext, h'.pages.trans h.pages, h'.dests.trans h.dests, h'.uris.trans h.uris⟩

theorem ids_of_info {s s' : PdfT} (h : s'.pages.map (fun p => (p.objId, p.annots)) = s.pages.map fun p => (p.objId, p.annots)) :
    s'.pages.map Page.objId = s.pages.map Page.objId := by
  have := congrArg (List.map Prod.fst) h
  simpa [List.map_map, Function.comp_def] using this

theorem OutInv.hush {s s' : PdfT} (hi : OutInv s) (h : Hush s s') : OutInv s' := by
  obtain ⟨hg, ht⟩ := h.ext.grows hi.wf
  have hp := ids_of_info h.pages
  refine ⟨hg.1, ht.trans hi.trailer, hg.2.2 _ _ hi.catalog, by rw [hp]; exact hi.nodup, ?_, by rw [h.dests]; exact hi.dests, ?_, ?_, ?_⟩
  · intro n hn
    rw [hp] at hn
    exact ⟨hg.2.2 _ _ (hi.page n hn).1, hg.2.2 _ _ (hi.page n hn).2⟩
  · intro e he
    rw [h.dests] at he
    rw [hp]
    exact hi.destPage e he
  · intro l n hn
    rw [h.uris] at hn
    exact hg.2.2 _ _ (hi.uris l n hn)
  · intro p hm id r hr
    have : (p.objId, p.annots) ∈ s'.pages.map fun p => (p.objId, p.annots) := List.mem_map_of_mem hm
    rw [h.pages] at this
    obtain ⟨q, hq, e⟩ := List.mem_map.1 this
    rw [h.uris]
    refine hi.links q hq id r ?_
    rw [(Prod.mk.inj e).2]
    exact hr

theorem Hush.onPage (s : PdfT) {f : Page → Page} (hf : ∀ p, (f p).objId = p.objId ∧ (f p).annots = p.annots) :
    Hush s (s.onPage f) :=
  ⟨.refl _, map_modify_same _ f (fun p => by rw [(hf p).1, (hf p).2]) _ _, rfl, rfl⟩

/-- the current page is replaced -/
theorem Hush.setPage {s : PdfT} {pg pg' : Page} (h : s.pages[s.pageIndex]? = some pg) (h1 : pg'.objId = pg.objId)
    (h2 : pg'.annots = pg.annots) : Hush s (s.onPage fun _ => pg') := by
  refine ⟨.refl _, ?_, rfl, rfl⟩
  show (s.pages.modify s.pageIndex _).map _ = _
  apply List.ext_getElem?
  intro j
  rw [List.getElem?_map, List.getElem?_map, List.getElem?_modify]
  by_cases hj : s.pageIndex = j
  · subst hj
    rw [h]
    simp [h1, h2]
  · cases s.pages[j]? <;> simp [hj]

theorem addOrGetFont_hush {E : PdfEnv} {p p' : FProc} {s s' : PdfT} {k : FKey} {r : Str × Nat}
    (h : s.addOrGetFont E p k = .ok (r, p', s')) : Hush s s' := by
  unfold PdfT.addOrGetFont at h
  split at h
  · cases h; exact .refl _
  · split at h
    · cases h
    · split at h
      · cases h
      · rename_i hf
        cases h
        exact ⟨addFontObj_ext hf, rfl, rfl, rfl⟩

theorem usedFont_hush {E : PdfEnv} {p p' : FProc} {s s' : PdfT} {k : FKey} (h : s.usedFont E p k = .ok (p', s')) : Hush s s' := by
  unfold PdfT.usedFont at h
  split at h
  · cases h
  · rename_i hf
    split at h
    · cases h
    · cases h
      exact (addOrGetFont_hush hf).trans (.onPage _ fun _ => ⟨rfl, rfl⟩)

theorem usedFonts_hush {E : PdfEnv} : ∀ (l : List FKey) {p p' : FProc} {s s' : PdfT}, s.usedFonts E l p = .ok (p', s') → Hush s s' := by
  intro l
  induction l with
  | nil => intro p p' s s' h; cases h; exact .refl _
  | cons k l ih =>
    intro p p' s s' h
    simp only [PdfT.usedFonts] at h
    split at h
    · cases h
    · rename_i h1
      exact (usedFont_hush h1).trans (ih h)

theorem foldl_addAnnot (g : IdRect → Annot) (l : List IdRect) (p : Page) :
    (l.foldl (fun p r => p.addAnnot (g r)) p).annots = p.annots ++ l.map g ∧
    (l.foldl (fun p r => p.addAnnot (g r)) p).objId = p.objId := by
  induction l generalizing p with
  | nil => simp
  | cons a l ih =>
    obtain ⟨h1, h2⟩ := ih (p.addAnnot (g a))
    simp only [List.foldl_cons, h1, h2]
    simp [Page.addAnnot]

theorem mem_modify {α : Type} {l : List α} {i : Nat} {f : α → α} {a : α} (h : a ∈ l.modify i f) : a ∈ l ∨ ∃ b ∈ l, a = f b := by
  obtain ⟨j, hj⟩ := List.mem_iff_getElem?.1 h
  rw [List.getElem?_modify] at hj
  cases hb : l[j]? with
  | none => rw [hb] at hj; simp at hj
  | some b =>
    have hm := List.mem_of_getElem? hb
    rw [hb] at hj
    simp only [Option.map_eq_map, Option.map_some, Option.some.injEq] at hj
    split at hj
    · exact .inr ⟨b, hm, hj.symm⟩
    · exact .inl (hj ▸ hm)

theorem onPage_ids (s : PdfT) {f : Page → Page} (hf : ∀ p, (f p).objId = p.objId) :
    (s.onPage f).pages.map Page.objId = s.pages.map Page.objId := map_modify_same _ f hf _ _

theorem addId_inv {E : PdfEnv} {s s' : PdfT} (hi : OutInv s) {page : Page} (hp : page.objId ∈ s.pages.map Page.objId)
    {x y : Rat} {id : Str} {rects : List IdRect} (h : s.addId E page x y id rects = .ok s') :
    OutInv s' ∧ s'.pages.map Page.objId = s.pages.map Page.objId := by
  unfold PdfT.addId at h
  split at h
  · cases h; exact ⟨hi, rfl⟩
  · rename_i d t
    split at h
    · -- a label
      rename_i name _
      unfold PdfT.addLabel at h
      split at h
      · cases h
      · cases h
        refine ⟨⟨hi.wf, hi.trailer, hi.catalog, hi.nodup, hi.page, dset_nodup hi.dests, ?_, hi.uris, hi.links⟩, rfl⟩
        intro e he
        rcases dget_dset_mem he with rfl | he
        · exact hp
        · exact hi.destPage e he
    · split at h
      · -- references
        rename_i name _
        cases h
        have hids : (s.addRefs E x y name (d :: t)).pages.map Page.objId = s.pages.map Page.objId :=
          onPage_ids s fun p => (foldl_addAnnot (fun r => .dest name (placeRect E.rnd x y r)) _ p).2
        refine ⟨⟨hi.wf, hi.trailer, hi.catalog, hids ▸ hi.nodup, hids ▸ hi.page, hi.dests, hids ▸ hi.destPage, hi.uris, ?_⟩, hids⟩
        intro p hm i r hr
        rcases mem_modify hm with hm | ⟨q, hq, rfl⟩
        · exact hi.links p hm i r hr
        · rw [(foldl_addAnnot (fun r => .dest name (placeRect E.rnd x y r)) _ q).1] at hr
          rcases List.mem_append.1 hr with hr | hr
          · exact hi.links q hq i r hr
          · simp at hr
      · split at h
        · -- links
          rename_i link _
          cases h
          -- the object of the action
          have key : OutInv (s.uriId link).2 ∧ (s.uriId link).2.pages = s.pages ∧
              dget link (s.uriId link).2.uris = some (s.uriId link).1 := by
            unfold PdfT.uriId
            split
            · rename_i i hl
              exact ⟨hi, rfl, hl⟩
            · rename_i hl
              have hg := Grows.add hi.wf (actionDict link)
              refine ⟨⟨hg.1, hi.trailer, hg.2.2 _ _ hi.catalog, hi.nodup, fun n hn => ⟨hg.2.2 _ _ (hi.page n hn).1, hg.2.2 _ _ (hi.page n hn).2⟩,
                hi.dests, hi.destPage, ?_, ?_⟩, rfl, dget_dset_self _ _ _⟩
              · intro l n hn
                simp only at hn
                rw [dget_dset] at hn
                split at hn
                · rename_i e
                  cases hn
                  rw [e]
                  exact dictAt_add_self hi.wf _
                · exact hg.2.2 _ _ (hi.uris l n hn)
              · intro p hm i r hr
                obtain ⟨l, hl'⟩ := hi.links p hm i r hr
                refine ⟨l, ?_⟩
                simp only
                rw [dget_dset_ne, hl']
                rintro rfl
                rw [hl] at hl'
                cases hl'
          obtain ⟨k1, k2, k3⟩ := key
          generalize hS : s.uriId link = u at k1 k2 k3
          have hids : (s.addUris E x y link (d :: t)).pages.map Page.objId = s.pages.map Page.objId := by
            rw [← k2]
            unfold PdfT.addUris
            rw [hS]
            exact onPage_ids u.2 fun p => (foldl_addAnnot (fun r => .link u.1 (placeRect E.rnd x y r)) _ p).2
          refine ⟨?_, hids⟩
          rw [← k2] at hids
          unfold PdfT.addUris at hids ⊢
          rw [hS] at hids ⊢
          refine ⟨k1.wf, k1.trailer, k1.catalog, hids ▸ k1.nodup, hids ▸ k1.page, k1.dests, hids ▸ k1.destPage, k1.uris, ?_⟩
          intro p hm i r hr
          rcases mem_modify hm with hm | ⟨q, hq, rfl⟩
          · exact k1.links p hm i r hr
          · rw [(foldl_addAnnot (fun r => .link u.1 (placeRect E.rnd x y r)) _ q).1] at hr
            rcases List.mem_append.1 hr with hr | hr
            · exact k1.links q hq i r hr
            · obtain ⟨z, -, e⟩ := List.mem_map.1 hr
              cases e
              exact ⟨link, k3⟩
        · split at h
          · unfold PdfT.addOutline at h
            split at h
            · cases h
            · split at h
              · cases h
              · cases h
                exact ⟨⟨hi.wf, hi.trailer, hi.catalog, hi.nodup, hi.page, hi.dests, hi.destPage, hi.uris, hi.links⟩, rfl⟩
          · cases h; exact ⟨hi, rfl⟩

theorem addIds_inv {E : PdfEnv} {page : Page} {x y : Rat} : ∀ (l : List (Str × List IdRect)) {s s' : PdfT}, OutInv s →
    page.objId ∈ s.pages.map Page.objId → s.addIds E page x y l = .ok s' → OutInv s' := by
  intro l
  induction l with
  | nil => intro s s' hi _ h; cases h; exact hi
  | cons a l ih =>
    intro s s' hi hp h
    obtain ⟨id, rects⟩ := a
    simp only [PdfT.addIds] at h
    split at h
    · cases h
    · rename_i h1
      obtain ⟨g1, g2⟩ := addId_inv hi hp h1
      exact ih g1 (by rw [g2]; exact hp) h

theorem addStr_info {p p' : Page} {t : Str} {n : Nat} (h : p.addStr t = .ok (n, p')) : p'.objId = p.objId ∧ p'.annots = p.annots := by
  unfold Page.addStr at h
  split at h
  · cases h; exact ⟨rfl, rfl⟩
  · cases h

theorem movePage_info (move : Str) (w h : Rat) (p : Page) :
    (movePage move w h p).objId = p.objId ∧ (movePage move w h p).annots = p.annots := by
  unfold movePage
  simp only
  split <;> split <;> exact ⟨rfl, rfl⟩

theorem addText_inv {E : PdfEnv} {F : NumFmt} {p p' : FProc} {s s' : PdfT} (hi : OutInv s) {x y width height : Rat} {text graphics : Str}
    {used : List FKey} {ids : List (Str × List IdRect)} {move : Str}
    (h : s.addText E F p x y width height text graphics used ids move = .ok (p', s')) : OutInv s' := by
  unfold PdfT.addText at h
  split at h
  · cases h
  · rename_i page hpage
    split at h
    · cases h
    · rename_i hstr
      obtain ⟨e1, e2⟩ := addStr_info hstr
      split at h
      · cases h
      · rename_i hu
        split at h
        · cases h
        · rename_i hids
          cases h
          have h1 := (Hush.setPage hpage e1 e2).trans (usedFonts_hush _ hu)
          have h2 : page.objId ∈ s.pages.map Page.objId := List.mem_map_of_mem (List.mem_of_getElem? hpage)
          rw [← ids_of_info h1.pages] at h2
          exact (addIds_inv _ (hi.hush h1) h2 hids).hush (.onPage _ fun p => movePage_info _ _ _ p)

theorem registerImage_info (p : Page) (id : Nat) : (p.registerImage id).objId = p.objId ∧ (p.registerImage id).annots = p.annots := by
  unfold Page.registerImage
  split <;> exact ⟨rfl, rfl⟩

theorem pageAddImage_info {F : NumFmt} {p q : Page} {id : Nat} {w h : Rat} (hg : p.addImage F id w h = .ok q) :
    q.objId = p.objId ∧ q.annots = p.annots := by
  unfold Page.addImage at hg
  simp only at hg
  split at hg
  · cases hg
  · split at hg
    · rename_i hr
      cases hg
      obtain ⟨a, b⟩ := addStr_info hr
      exact ⟨a.trans (registerImage_info p id).1, b.trans (registerImage_info p id).2⟩
    · cases hg

theorem imageObj_hush (s : PdfD) (im : PImg) : Hush s.doc (s.imageObj im).2.doc := by
  unfold PdfD.imageObj
  split
  · exact .refl _
  · exact ⟨.add _ _, rfl, rfl, rfl⟩

theorem addImage_inv {F : NumFmt} {s s' : PdfD} (hi : OutInv s.doc) {im : PImg} {x y w h : Option Rat} {move : Str}
    (hg : s.addImage F im x y w h move = .ok s') : OutInv s'.doc := by
  have h0 := imageObj_hush s im
  unfold PdfD.addImage at hg
  simp only at hg
  split at hg
  · cases hg
  · rename_i page hpage
    split at hg
    · cases hg
    · split at hg
      · cases hg
      · rename_i q hq
        cases hg
        obtain ⟨a, b⟩ := pageAddImage_info hq
        refine hi.hush (h0.trans (.setPage hpage ?_ ?_))
        · rw [(movePage_info _ _ _ _).1]; exact a
        · rw [(movePage_info _ _ _ _).2]; exact b

theorem addParts_inv {E : PdfEnv} {F : NumFmt} : ∀ (l : List PdfPart) {p p' : FProc} {s s' : PdfD}, OutInv s.doc →
    s.addParts E F l p = .ok (p', s') → OutInv s'.doc := by
  intro l
  induction l with
  | nil => intro p p' s s' hi h; cases h; exact hi
  | cons a l ih =>
    intro p p' s s' hi h
    simp only [PdfD.addParts] at h
    split at h
    · cases h
    · rename_i r hr
      refine ih ?_ h
      cases a with
      | paragraph x y width height text graphics used ids =>
        simp only [PdfD.addPart] at hr
        cases ht : s.doc.addText E F p x y width height text graphics used ids c!"bottom" with
        | error e => rw [ht] at hr; cases hr
        | ok t => rw [ht] at hr; cases hr; exact addText_inv hi ht
      | image im x y width height =>
        simp only [PdfD.addPart] at hr
        cases ht : s.addImage F im (some x) (some y) (some width) (some height) c!"bottom" with
        | error e => rw [ht] at hr; cases hr
        | ok t => rw [ht] at hr; cases hr; exact addImage_inv hi ht

theorem addBox_inv {E : PdfEnv} {F : NumFmt} {p p' : FProc} {s s' : PdfD} (hi : OutInv s.doc) {b : BoxOut} {width : Rat} {move : Str}
    (h : s.addBox E F p b width move = .ok (p', s')) : OutInv s'.doc := by
  unfold PdfD.addBox at h
  split at h
  · cases h
  · rename_i s1 h1
    split at h
    · cases h
    · rename_i r hr
      cases h
      refine (addParts_inv _ ?_ hr).hush (.onPage _ fun p => movePage_info _ _ _ p)
      unfold PdfD.addGraphics at h1
      split at h1
      · cases h1
      · split at h1
        · cases h1
        · rename_i hpage
          split at h1
          · cases h1
          · rename_i t ht
            cases h1
            obtain ⟨a, b⟩ := addStr_info ht
            exact hi.hush (.setPage hpage a b)

theorem addPage_inv {s : PdfT} (hi : OutInv s) (w h top bottom left right : Rat) : OutInv (s.addPage w h top bottom left right) := by
  have g1 := Grows.add hi.wf freshStream
  have g2 := Grows.add (hi.wf.addDict freshStream) (freshPage s.base.count)
  have hg := g1.trans g2
  have hc : (s.base.addDict freshStream).2.count = s.base.count + 1 := addDict_count _ _
  have hids : (s.addPage w h top bottom left right).pages.map Page.objId = s.pages.map Page.objId ++ [s.base.count + 1] := by
    simp [PdfT.addPage, Page.new, Page.goToBeginning, Base.addDict]
  have hbase : (s.addPage w h top bottom left right).base = ((s.base.addDict freshStream).2.addDict (freshPage s.base.count)).2 := rfl
  refine ⟨hg.1, hi.trailer, hg.2.2 _ _ hi.catalog, ?_, ?_, hi.dests, ?_, fun l n hn => hg.2.2 _ _ (hi.uris l n hn), ?_⟩
  · rw [hids, List.nodup_append]
    refine ⟨hi.nodup, by simp, ?_⟩
    intro a ha c hc'
    simp only [List.mem_singleton] at hc'
    have := dictAt_lt hi.wf (hi.page a ha).1
    omega
  · intro n hn
    rw [hids, List.mem_append, List.mem_singleton] at hn
    rw [hbase]
    rcases hn with hn | rfl
    · exact ⟨hg.2.2 _ _ (hi.page n hn).1, hg.2.2 _ _ (hi.page n hn).2⟩
    · constructor
      · rw [← hc]
        exact dictAt_add_self (hi.wf.addDict _) _
      · exact g2.2.2 _ _ (dictAt_add_self hi.wf _)
  · intro e he
    rw [hids]
    exact List.mem_append_left _ (hi.destPage e he)
  · intro p hm id r hr
    rcases List.mem_append.1 hm with hm | hm
    · exact hi.links p hm id r hr
    · simp only [List.mem_singleton] at hm
      subst hm
      simp [Page.new, Page.goToBeginning] at hr

theorem init_inv (version : Str) : OutInv (PdfT.init version) := by
  refine ⟨rfl, rfl, rfl, by simp [PdfT.init], by simp [PdfT.init], by simp [PdfT.init], by simp [PdfT.init], ?_, by simp [PdfT.init]⟩
  intro l n hn
  simp [PdfT.init, dget] at hn

theorem new_inv {E : PdfEnv} {p p' : FProc} {version : Str} {s : PdfT} (h : PdfT.new E p version = .ok (p', s)) : OutInv s := by
  unfold PdfT.new at h
  cases hf : (PdfT.init version).addOrGetFont E p (c!"Helvetica", c!"n") with
  | error e => rw [hf] at h; cases h
  | ok r =>
    rw [hf] at h
    cases h
    exact (init_inv version).hush (addOrGetFont_hush hf)

theorem op_inv {E : PdfEnv} {F : NumFmt} {p p' : FProc} {s s' : PdfD} (hi : OutInv s.doc) {o : PdfOp}
    (h : s.op E F p o = .ok (p', s')) : OutInv s'.doc := by
  cases o with
  | page a b c d e f => cases h; exact addPage_inv hi _ _ _ _ _ _
  | text x y width height text graphics used ids move =>
    simp only [PdfD.op] at h
    cases ht : s.doc.addText E F p x y width height text graphics used ids move with
    | error e => rw [ht] at h; cases h
    | ok t => rw [ht] at h; cases h; exact addText_inv hi ht
  | image im x y width height move =>
    simp only [PdfD.op] at h
    cases ht : s.addImage F im x y width height move with
    | error e => rw [ht] at h; cases h
    | ok t => rw [ht] at h; cases h; exact addImage_inv hi ht
  | box b width move => exact addBox_inv hi h

theorem ops_inv {E : PdfEnv} {F : NumFmt} : ∀ (l : List PdfOp) {r r' : FProc × PdfD}, OutInv r.2.doc → PdfD.ops E F l r = .ok r' →
    OutInv r'.2.doc := by
  intro l
  induction l with
  | nil => intro r r' hi h; cases h; exact hi
  | cons o l ih =>
    intro r r' hi h
    simp only [PdfD.ops] at h
    split at h
    · cases h
    · rename_i h1
      exact ih (op_inv hi h1) h

theorem history_inv {E : PdfEnv} {F : NumFmt} {p p' : FProc} {version : Str} {ops : List PdfOp} {s : PdfD}
    (h : PdfD.history E F p version ops = .ok (p', s)) : OutInv s.doc := by
  unfold PdfD.history at h
  split at h
  · cases h
  · rename_i hn
    exact ops_inv ops (r' := (p', s)) (new_inv hn) h

end Verif
