import Verif.Model.PdfFlow
import Verif.Spec.FileParts
import Verif.Lemmas.GraphicsQuiet
import Verif.Props.C18_Graphics
import Verif.Lemmas.FilePages
import Verif.Lemmas.DocOps
import Verif.Lemmas.WritableDoc
/-! What paragraphs, images, fills and lines put on the pages of a document. -/
namespace Verif
open Spec

/-- the pieces that were painted on a page -/
def seenOn (runs : List Painted) (i : Nat) : List Event := (runs.filter fun r => r.page = i).flatMap Painted.evs

/-- if what comes from outside can be written, with the images of `L` and the ids of the pieces, then so can the document -/
def CleanIf (E : PdfEnv) (L : PImg → Prop) (s : PdfT) (places : List Place) : Prop :=
  E.Fine → (∀ im, L im → dictWritable im.obj = true) → (∀ q ∈ places, ∀ id ∈ q.ids, id.2 ≠ [] → idWritable E.json id.1) → s.base.version.all isLatin = true → Clean s

theorem CleanIf.step {E : PdfEnv} {L : PImg → Prop} {s s' : PdfT} {places more : List Place} (h : CleanIf E L s places) (hv : s'.base.version = s.base.version)
    (hs : E.Fine → (∀ im, L im → dictWritable im.obj = true) → (∀ q ∈ more, ∀ id ∈ q.ids, id.2 ≠ [] → idWritable E.json id.1) → Clean s → Clean s') :
    CleanIf E L s' (places ++ more) := fun h1 h2 h3 h4 =>
  hs h1 h2 (fun q hq => h3 q (List.mem_append.2 (Or.inr hq))) (h h1 h2 (fun q hq => h3 q (List.mem_append.2 (Or.inl hq))) (hv ▸ h4))

theorem CleanIf.same {E : PdfEnv} {L : PImg → Prop} {s s' : PdfT} {places : List Place} (h : CleanIf E L s places) (hv : s'.base.version = s.base.version)
    (hs : Clean s → Clean s') : CleanIf E L s' places := fun h1 h2 h3 h4 => hs (h h1 h2 h3 (hv ▸ h4))

/-- the pages of a document show the pieces; its images are among `L`, the widths of its pages among `W` -/
structure DrawnDoc (E : PdfEnv) (L : PImg → Prop) (W : Rat → Prop) (s : PdfD) (runs : List Painted) : Prop where
  out : OutInv s.doc
  inv : s.Inv
  index : s.doc.pages ≠ [] → s.doc.pageIndex + 1 = s.doc.pages.length
  page : ∀ (i : Nat) pg, s.doc.pages[i]? = some pg → PageReads pg (seenOn runs i) ∧ W pg.contentWidth
  bound : ∀ r ∈ runs, r.page < s.doc.pages.length
  sorted : (runs.map Painted.page).Pairwise (· ≤ ·)
  imgs : ∀ n id, dget n s.images = some id → ∃ im, L im ∧ im.name = n ∧ s.doc.base.dictAt id = some im.obj
  /-- the links, names and outline are those of the paragraphs, unless an image is made to look like the action of a link -/
  links : (∀ im, L im → ¬ isAction im.obj) → ∃ sizes, OpsInv E s.doc sizes (runPlaces runs)
  clean : CleanIf E L s.doc (runPlaces runs)

theorem runPlaces_append (a b : List Painted) : runPlaces (a ++ b) = runPlaces a ++ runPlaces b := by
  simp [runPlaces]

/-- a page is changed, but not what links are about -/
theorem OpsInv.setPage {E : PdfEnv} {s : PdfT} {sizes places} (hi : OpsInv E s sizes places) {pg pg' : Page} (hp : s.pages[s.pageIndex]? = some pg)
    (h1 : pg'.objId = pg.objId) (h2 : pg'.annots = pg.annots) (h3 : pg'.width = pg.width) (h4 : pg'.height = pg.height) :
    OpsInv E (s.onPage fun _ => pg') sizes places := by
  obtain ⟨puts, p1, -⟩ := hi.puts
  refine hi.calm (Calm.setPage hp (by rw [h1, h3, h4])) ?_
  refine ⟨rfl, rfl, ⟨p1.wf, le_refl _, fun _ _ h => h⟩, fun _ _ h _ => h, ?_, rfl⟩
  show (s.pages.modify s.pageIndex _).map _ = _
  apply List.ext_getElem?
  intro j
  rw [List.getElem?_map, List.getElem?_map, List.getElem?_modify]
  by_cases hj : s.pageIndex = j
  · subst hj
    rw [hp]
    simp [h1, h2, h3]
  · cases s.pages[j]? <;> simp [hj]

/-- what the documents of a sequence have in common -/
structure Later (s s' : PdfD) : Prop where
  images : ∀ n id, dget n s.images = some id → dget n s'.images = some id
  pages : ∀ (i : Nat) pg, s.doc.pages[i]? = some pg → ∃ pg' t, s'.doc.pages[i]? = some pg' ∧ pg'.xres = pg.xres ++ t
  version : s'.doc.base.version = s.doc.base.version

theorem Later.refl (s : PdfD) : Later s s := ⟨fun _ _ h => h, fun _ pg h => ⟨pg, [], h, by simp⟩, rfl⟩

theorem Later.trans {a b c : PdfD} (h : Later a b) (h' : Later b c) : Later a c := by
  refine ⟨fun n id hn => h'.images n id (h.images n id hn), ?_, h'.version.trans h.version⟩
  intro i pg hi
  obtain ⟨pg', t, h1, h2⟩ := h.pages i pg hi
  obtain ⟨pg'', t', h3, h4⟩ := h'.pages i pg' h1
  exact ⟨pg'', t ++ t', h3, by rw [h4, h2, List.append_assoc]⟩

theorem Did.later {s s' : PdfD} {pg pg' : Page} (h : Did s s' pg pg') (hv : s'.doc.base.version = s.doc.base.version) : Later s s' := by
  refine ⟨h.images, ?_, hv⟩
  intro i q hi
  by_cases hj : i = s.doc.pageIndex
  · subst hj
    have e := h.before
    unfold PdfD.cur at e
    rw [hi] at e
    cases e
    obtain ⟨t, ht⟩ := h.xres
    have e := h.after
    unfold PdfD.cur at e
    rw [h.index] at e
    exact ⟨pg', t, e, ht⟩
  · have e := h.others i hj
    rw [hi] at e
    cases hs : s'.doc.pages[i]? with
    | none => rw [hs] at e; cases e
    | some q' =>
      rw [hs] at e
      simp only [Option.map_some, Option.some.injEq] at e
      exact ⟨q', [], rfl, by rw [List.append_nil]; exact congrArg PCore.xres e⟩

theorem Did.length {s s' : PdfD} {pg pg' : Page} (h : Did s s' pg pg') : s'.doc.pages.length = s.doc.pages.length := by
  have key : ∀ i : Nat, (s'.doc.pages[i]?).isSome = (s.doc.pages[i]?).isSome := by
    intro i
    by_cases hj : i = s.doc.pageIndex
    · subst hj
      have e := h.before
      have e' := h.after
      unfold PdfD.cur at e e'
      rw [h.index] at e'
      rw [e, e']
      rfl
    · have e := congrArg Option.isSome (h.others i hj)
      simpa using e
  have lt : ∀ {l : List Page} {i : Nat}, (l[i]?).isSome = true ↔ i < l.length := by
    intro l i
    simp
  apply le_antisymm
  · by_contra hc
    have := lt.2 (Nat.lt_of_not_le hc)
    rw [key] at this
    have := lt.1 this
    omega
  · by_contra hc
    have := lt.2 (Nat.lt_of_not_le hc)
    rw [← key] at this
    have := lt.1 this
    omega

theorem seenOn_snoc (runs : List Painted) (r : Painted) (i : Nat) : seenOn (runs ++ [r]) i = seenOn runs i ++ if r.page = i then r.evs else [] := by
  unfold seenOn
  rw [List.filter_append, List.flatMap_append]
  by_cases h : r.page = i <;> simp [h]

theorem seenOn_none {runs : List Painted} {i : Nat} (h : ∀ r ∈ runs, r.page ≠ i) : seenOn runs i = [] := by
  unfold seenOn
  rw [List.filter_eq_nil_iff.2 (by intro r hr; simpa using h r hr)]
  rfl

theorem DrawnDoc.width {E : PdfEnv} {L : PImg → Prop} {W : Rat → Prop} {s : PdfD} {runs : List Painted} (h : DrawnDoc E L W s runs) {pg : Page} (hp : s.cur = some pg) :
    W pg.contentWidth := (h.page _ _ hp).2

/-- something is added to the stream of the current page -/
theorem DrawnDoc.step {E : PdfEnv} {L : PImg → Prop} {W : Rat → Prop} {s s' : PdfD} {runs : List Painted} {pg pg' : Page} (h : DrawnDoc E L W s runs) (hd : Did s s' pg pg')
    (hout : OutInv s'.doc) (himg : ∀ n id, dget n s'.images = some id → ∃ im, L im ∧ im.name = n ∧ s'.doc.base.dictAt id = some im.obj)
    {mk : Option TextPiece} (hlinks : (∀ im, L im → ¬ isAction im.obj) → ∀ sizes, OpsInv E s.doc sizes (runPlaces runs) →
      OpsInv E s'.doc sizes (runPlaces runs ++ (mk.map fun m => (⟨s.doc.pageIndex, m.x, m.y, m.ids⟩ : Place)).toList))
    (hver : s'.doc.base.version = s.doc.base.version) (hclean : E.Fine → (∀ im, L im → dictWritable im.obj = true) →
      (∀ m, mk = some m → ∀ id ∈ m.ids, id.2 ≠ [] → idWritable E.json id.1) → Clean s.doc → Clean s'.doc)
    {str : Str} {ops : List Op} (hadd : pg.core.Adds pg'.core (bytesOf str)) (ho : OpsTo str ops) (hs : Sep (bytesOf str)) {P : List Event → Prop}
    (hx : ∀ m : MS, m.path = [] → m.text = none → m.gs.cms = [] → ∃ gs evs', exec m ops = some (⟨gs, m.stack, [], none⟩, evs') ∧ gs.cms = [] ∧ P evs') :
    ∃ evs, P evs ∧ DrawnDoc E L W s' (runs ++ [⟨s.doc.pageIndex, evs, mk⟩]) := by
  have hcur : s.doc.pages[s.doc.pageIndex]? = some pg := hd.before
  have hafter : s'.doc.pages[s.doc.pageIndex]? = some pg' := by
    have := hd.after
    unfold PdfD.cur at this
    rwa [hd.index] at this
  have hok := h.inv.pages _ _ hcur
  obtain ⟨b1, -⟩ := addBytes_core hok (bytesOf str)
  have e1 : pg'.stream = pg.stream ++ [(pg.currentId, bytesOf str)] := hadd
  have e2 : (pg.addBytes (bytesOf str)).2.stream = pg.stream ++ [(pg.currentId, bytesOf str)] := b1
  have len : ∀ {p : Page}, p.core.Ok → p.currentId = p.stream.length := by
    intro p hp
    have := congrArg List.length hp.stream
    simpa [Page.core] using this.symm
  have e3 : pg'.currentId = (pg.addBytes (bytesOf str)).2.currentId := by
    rw [len hd.ok, e1, List.length_append]
    show _ = pg.currentId + 1
    rw [len hok]
    rfl
  obtain ⟨evs, hP, hr⟩ := (h.page _ _ hcur).1.add ho hs hx (e1.trans e2.symm) e3
  have hidx := h.index (by intro e; rw [e] at hcur; simp at hcur)
  refine ⟨evs, hP, hout, hd.inv h.inv, fun _ => by rw [hd.length, hd.index]; exact hidx, ?_, ?_, ?_, himg, ?_, ?_⟩
  · intro i q hi
    rw [seenOn_snoc]
    by_cases hj : i = s.doc.pageIndex
    · subst hj
      rw [hafter] at hi
      cases hi
      rw [if_pos rfl]
      exact ⟨hr, by rw [hd.size.2.2]; exact (h.page _ _ hcur).2⟩
    · rw [if_neg (Ne.symm hj), List.append_nil]
      have e := hd.others i hj
      rw [hi] at e
      cases hq : s.doc.pages[i]? with
      | none => rw [hq] at e; cases e
      | some q0 =>
        rw [hq] at e
        simp only [Option.map_some, Option.some.injEq] at e
        obtain ⟨a1, a2⟩ := h.page i q0 hq
        exact ⟨pageReads_same a1 (congrArg PCore.stream e) (congrArg PCore.next e), by
          rw [show q.contentWidth = q0.contentWidth from congrArg PCore.cw e]; exact a2⟩
  · intro r hr
    rw [hd.length]
    rcases List.mem_append.1 hr with hr | hr
    · exact h.bound r hr
    · simp only [List.mem_singleton] at hr
      subst hr
      show s.doc.pageIndex < _
      omega
  · rw [List.map_append, List.pairwise_append]
    refine ⟨h.sorted, by simp, ?_⟩
    intro a ha b hb
    simp only [List.map_cons, List.map_nil, List.mem_singleton] at hb
    subst hb
    obtain ⟨r, hr, rfl⟩ := List.mem_map.1 ha
    have := h.bound r hr
    show r.page ≤ s.doc.pageIndex
    omega
  · intro hL
    obtain ⟨sizes, hi⟩ := h.links hL
    refine ⟨sizes, ?_⟩
    rw [runPlaces_append]
    have := hlinks hL sizes hi
    cases mk <;> exact this
  · rw [runPlaces_append]
    refine h.clean.step hver fun e1 e2 e3 => hclean e1 e2 fun m hm => ?_
    subst hm
    exact e3 ⟨s.doc.pageIndex, m.x, m.y, m.ids⟩ (by simp [runPlaces])

/-- nothing is added to the stream of the current page -/
theorem DrawnDoc.still {E : PdfEnv} {L : PImg → Prop} {W : Rat → Prop} {s : PdfD} {runs : List Painted} {pg pg' : Page} (h : DrawnDoc E L W s runs) (hp : s.cur = some pg)
    (h1 : pg'.objId = pg.objId) (h2 : pg'.annots = pg.annots) (h3 : pg'.core.stream = pg.core.stream) (h4 : pg'.core.next = pg.core.next)
    (h5 : pg'.xres = pg.xres) (h6 : pg'.width = pg.width ∧ pg'.height = pg.height ∧ pg'.contentWidth = pg.contentWidth) (h7 : pg'.core.Ok)
    (h8 : pg'.fonts = pg.fonts) :
    DrawnDoc E L W { s with doc := s.doc.onPage fun _ => pg' } runs ∧ Later s { s with doc := s.doc.onPage fun _ => pg' } := by
  have hd : Did s { s with doc := s.doc.onPage fun _ => pg' } pg pg' := Did.page h.inv hp (f := fun _ => pg') h5 h6 h7
  have hcur : s.doc.pages[s.doc.pageIndex]? = some pg := hp
  refine ⟨⟨h.out.hush (Hush.setPage hp h1 h2), hd.inv h.inv, fun _ => ?_, ?_, ?_, h.sorted, h.imgs, fun hL => ?_, ?_⟩, hd.later rfl⟩
  · rw [hd.length, hd.index]
    exact h.index (by intro e; rw [e] at hcur; simp at hcur)
  · intro i q hi
    by_cases hj : i = s.doc.pageIndex
    · subst hj
      have : (s.doc.onPage fun _ => pg').pages[s.doc.pageIndex]? = some pg' := modify_at hcur _
      rw [this] at hi
      cases hi
      obtain ⟨a1, a2⟩ := h.page _ _ hcur
      exact ⟨pageReads_same a1 h3 h4, by rw [h6.2.2]; exact a2⟩
    · have : (s.doc.onPage fun _ => pg').pages[i]? = s.doc.pages[i]? := modify_other hj
      rw [this] at hi
      exact h.page i q hi
  · intro r hr
    rw [hd.length]
    exact h.bound r hr
  · obtain ⟨sizes, hi⟩ := h.links hL
    exact ⟨sizes, hi.setPage hp h1 h2 h6.1 h6.2.1⟩
  · exact h.clean.same rfl fun hc => hc.setPage hp h2 h5 h8

theorem drawn_nextPage {E : PdfEnv} {L : PImg → Prop} {W : Rat → Prop} {s : PdfD} {runs : List Painted} (h : DrawnDoc E L W s runs) {k : Sheet} (hW : W (k.w - k.right - k.left)) :
    DrawnDoc E L W (s.nextPage k) runs ∧ Later s (s.nextPage k) := by
  have hpages : (s.nextPage k).doc.pages = s.doc.pages ++ [Page.new (s.doc.base.count + 1) k.w k.h k.top k.bottom k.left k.right] := by
    simp [PdfD.nextPage, PdfT.addPage, Base.addDict, Base.add, Base.count]
  have hlen : (s.nextPage k).doc.pages.length = s.doc.pages.length + 1 := by rw [hpages]; simp
  have hgrow : Grows s.doc.base (s.nextPage k).doc.base :=
    (Grows.add h.inv.wf [(kFilter, .bytes b!"/FlateDecode"), (kStream, .dict [])]).trans
      (Grows.add (h.inv.wf.addDict _) [(kType, .bytes b!"/Page"), (kContents, .ref (s.doc.base.addDict [(kFilter, .bytes b!"/FlateDecode"), (kStream, .dict [])]).1),
        (kResources, .dict [])])
  have key : ∀ (i : Nat) pg, (s.nextPage k).doc.pages[i]? = some pg → s.doc.pages[i]? = some pg ∨
      i = s.doc.pages.length ∧ pg = Page.new (s.doc.base.count + 1) k.w k.h k.top k.bottom k.left k.right := by
    intro i pg hi
    rw [hpages] at hi
    by_cases hl : i < s.doc.pages.length
    · rw [List.getElem?_append_left hl] at hi
      exact Or.inl hi
    · rw [List.getElem?_append_right (by omega)] at hi
      have e : i - s.doc.pages.length = 0 := by
        by_contra hc
        rw [List.getElem?_eq_none (by simp; omega)] at hi
        cases hi
      rw [e] at hi
      simp only [List.getElem?_cons_zero, Option.some.injEq] at hi
      exact Or.inr ⟨by omega, hi.symm⟩
  refine ⟨⟨addPage_inv h.out _ _ _ _ _ _, ⟨hgrow.1, ?_⟩, fun _ => by rw [hlen]; rfl, ?_, ?_, h.sorted, ?_, fun hL => ?_, ?_⟩, ⟨fun _ _ h => h, ?_, rfl⟩⟩
  · intro i pg hi
    rcases key i pg hi with hi | ⟨-, rfl⟩
    · exact h.inv.pages i pg hi
    · exact ⟨rfl, rfl, rfl, List.nodup_nil⟩
  · intro i pg hi
    rcases key i pg hi with hi | ⟨rfl, rfl⟩
    · exact h.page i pg hi
    · rw [seenOn_none (by intro r hr; have := h.bound r hr; omega)]
      exact ⟨pageReads_new _ _ _ _ _ _ _, hW⟩
  · intro r hr
    rw [hlen]
    have := h.bound r hr
    omega
  · intro n id hn
    obtain ⟨im, h1, h2, h3⟩ := h.imgs n id hn
    exact ⟨im, h1, h2, hgrow.2.2 _ _ h3⟩
  · obtain ⟨sizes, hi⟩ := h.links hL
    exact ⟨_, hi.page k.w k.h k.top k.bottom k.left k.right⟩
  · exact h.clean.same rfl fun hc => addPage_clean hc _ _ _ _ _ _
  · intro i pg hi
    refine ⟨pg, [], ?_, by simp⟩
    rw [hpages, List.getElem?_append_left (List.getElem?_eq_some_iff.1 hi).1]
    exact hi

/-! ### Pieces -/

/-- what a piece shows of a part; fills and lines are not parts -/
def PieceShows (T : TextEnv) (s : PdfD) : Option DocPart → Painted → Prop
  | none, r => r.mark = none ∧ ∀ e ∈ r.evs, Event.mute e
  | some (.par x y w h _ _ _ ids cfg lines), r => r.mark = some ⟨x, y, ids, lines⟩ ∧ RunMarked T.fmt T.metrics cfg x y w lines ids r.evs ∧ Same (eventToks none r.evs) (.sep :: lines.flatMap lineChars) ∧ (∀ e ∈ r.evs, Event.plain e) ∧
      PieceAt T.fmt cfg x y h r.evs ∧ ∀ font, eventGlyphs font r.evs = lines.flatMap (lineGlyphs T.fmt font)
  | some (.image im x y w h), r => r.mark = none ∧ ∃ gs n id pg, r.evs = [.xobject gs (bytesOf (imName n))] ∧
      gs.cms = [[T.fmt.b w, b!"0", b!"0", T.fmt.b h, T.fmt.b x, T.fmt.b y]] ∧
      dget im.name s.images = some id ∧ s.doc.pages[r.page]? = some pg ∧ dget (imName n) pg.xres = some id

theorem PieceShows.later {T : TextEnv} {s s' : PdfD} (hl : Later s s') : ∀ {a : Option DocPart} {r : Painted}, PieceShows T s a r → PieceShows T s' a r
  | none, _, h => h
  | some (.par ..), _, h => h
  | some (.image ..), _, ⟨h0, gs, n, id, pg, h1, h2, h3, h4, h5⟩ => by
    obtain ⟨pg', t, k1, k2⟩ := hl.pages _ _ h4
    exact ⟨h0, gs, n, id, pg', h1, h2, hl.images _ _ h3, k1, by rw [k2]; exact dget_append_left h5 t⟩

/-- a part that can be shown: a paragraph was run at a position that it can have; an image is one of `L` -/
def PartOk (T : TextEnv) (refOf : Str → Str → Str) (L : PImg → Prop) : DocPart → Prop
  | .par _ _ width h text graphics _ ids cfg lines => ∃ enc height pos correct o, Readable T.fmt refOf cfg ∧ TReach T.metrics cfg pos ∧
      textOut T.fmt T.metrics T.encs cfg enc width height pos correct = .ok o ∧ text = o.text ∧ graphics = o.graphics ∧ ids = o.ids ∧
      lines = (textRun T.metrics cfg width height pos).lines ∧ h = (textRun T.metrics cfg width height pos).curHeight
  | .image im _ _ _ _ => L im

variable {E : PdfEnv} {T : TextEnv} {refOf : Str → Str → Str} {L : PImg → Prop} {W : Rat → Prop}

/-- `_add_text` -/
theorem drawn_text (hT : T.Ok) {p p' : FProc} {s : PdfD} {d : PdfT} {runs : List Painted} (hs : DrawnDoc E L W s runs) {x y width height : Rat}
    {text graphics : Str} {used : List FKey} {ids : List (Str × List IdRect)} {cfg : TCfg} {lines : List (TLine × Bool)}
    (hok : PartOk T refOf L (.par x y width height text graphics used ids cfg lines))
    (h : s.doc.addText E T.fmt.toNumFmt p x y width height text graphics used ids c!"bottom" = .ok (p', d)) :
    ∃ r, PieceShows T { s with doc := d } (some (.par x y width height text graphics used ids cfg lines)) r ∧
      DrawnDoc E L W { s with doc := d } (runs ++ [r]) ∧ Later s { s with doc := d } := by
  obtain ⟨enc, hh, pos, correct, o, o1, o2, o3, rfl, rfl, rfl, rfl, rfl⟩ := hok
  obtain ⟨pg, pg', a1, a2, -⟩ := text_did hs.inv h
  rw [← paragraphStream_eq] at a2
  have hlat : ∀ c ∈ paragraphStream T.fmt.toNumFmt x y o.text o.graphics, isLatin c = true := by
    have h' := h
    have hcur : s.doc.pages[s.doc.pageIndex]? = some pg := a1.before
    unfold PdfT.addText at h'
    rw [hcur] at h'
    simp only at h'
    cases ha : pg.addStr (paragraphStream T.fmt.toNumFmt x y o.text o.graphics) with
    | error e => rw [ha] at h'; cases h'
    | ok r =>
      unfold Page.addStr at ha
      cases hb : encodeLatin (paragraphStream T.fmt.toNumFmt x y o.text o.graphics) with
      | error e => rw [hb] at ha; cases ha
      | ok b => exact (encodeLatin_inv hb).1
  obtain ⟨ops, q1, q2⟩ := text_chunk hT.fmt hT.encs o1 o2 o3 x y hlat
  obtain ⟨evs, hP, hr⟩ := hs.step a1 (addText_inv hs.out h) (by
    intro n id hn
    obtain ⟨im, i1, i2, i3⟩ := hs.imgs n id hn
    exact ⟨im, i1, i2, a1.grows.2.2 _ _ i3⟩) (mk := some ⟨x, y, o.ids, _⟩) (fun _ sizes hi => by
      have hidx : s.doc.pageIndex = sizes.length - 1 := by rw [hi.index, ← hi.sizes, List.length_map]
      rw [hidx]
      exact hi.text h) (addText_version h) (fun hE _ hid hc => addText_clean hE hc (hid _ rfl) h) a2 q1 (paragraphStream_sep _ _ _ _ _) q2
  exact ⟨_, ⟨rfl, hP.2.2.2.2.2, hP.1, hP.2.2.2.2.1, hP.2.1, hP.2.2.1⟩, hr, a1.later (addText_version h)⟩

/-- `add_image` -/
theorem drawn_image (hT : T.Ok) {s s' : PdfD} {runs : List Painted} (hs : DrawnDoc E L W s runs) {im : PImg} (him : L im) {x y w h : Option Rat}
    (hg : s.addImage T.fmt.toNumFmt im x y w h c!"bottom" = .ok s') :
    ∃ pg X Y width height r, s.cur = some pg ∧ X = x.getD pg.x ∧ Y = y.getD pg.yUp ∧ ImageSize pg.contentWidth im.width im.height w h width height ∧
      PieceShows T s' (some (.image im X Y width height)) r ∧ DrawnDoc E L W s' (runs ++ [r]) ∧ Later s s' := by
  obtain ⟨pg, pg', width, height, portion, id, a1, a2, a3, a4, ⟨n, a5, rfl⟩, -⟩ := image_did hs.inv hg
  obtain ⟨ops, q1, q2⟩ := image_ops T.fmt.toNumFmt hT.fmt.1.1 width height (x.getD pg.x) (y.getD pg.yUp) n
  have himgs : ∀ n id, dget n s'.images = some id → ∃ im, L im ∧ im.name = n ∧ s'.doc.base.dictAt id = some im.obj := by
    obtain ⟨_, _, _, _, _, _, -, -, -, -, -, -, -, -, -, -, -, -, -, e1, e2⟩ := addImage_core hs.inv.wf (fun pg hp => hs.inv.pages _ pg hp) hg
    obtain ⟨i1, -, -, i4, i5, i6, i7⟩ := imageObj_spec hs.inv.wf im
    intro n id hn
    rw [e1] at hn
    rw [e2]
    by_cases hnone : dget im.name s.images = none
    · obtain ⟨j1, j2, j3⟩ := i6 hnone
      by_cases hnn : n = im.name
      · subst hnn
        rw [i4] at hn
        cases hn
        exact ⟨im, him, rfl, j2⟩
      · rw [j3] at hn
        cases hd : dget n s.images with
        | some id' =>
          obtain ⟨im', k1, k2, k3⟩ := hs.imgs n id' hd
          rw [dget_append_left hd] at hn
          cases hn
          exact ⟨im', k1, k2, i1.2.2 _ _ k3⟩
        | none =>
          rw [← dset_of_none hnone, dget_dset_ne (Ne.symm hnn), hd] at hn
          cases hn
    · rw [i7 hnone] at hn ⊢
      exact hs.imgs n id hn
  obtain ⟨evs, hP, hr⟩ := hs.step (P := fun evs => ∃ gs : GS, evs = [.xobject gs (bytesOf (imName n))] ∧
      gs.cms = [[T.fmt.b width, b!"0", b!"0", T.fmt.b height, T.fmt.b (x.getD pg.x), T.fmt.b (y.getD pg.yUp)]]) a1 (addImage_inv hs.out hg) himgs (mk := none)
      (fun hL sizes hi => by simpa using hi.image (hL im him) hg) (addImage_version hg) (fun _ hL _ hc => addImage_clean hc (hL im him) hg) a3 q1 (sep_space _) (by
    intro m hp ht hc
    obtain ⟨gs, g1, g2⟩ := q2 m hp ht
    refine ⟨m.gs, _, ?_, hc, gs, rfl, ?_⟩
    · rw [g1]
      obtain ⟨gs, st, pa, te⟩ := m
      cases hp
      cases ht
      rfl
    · rw [g2, hc]
      rfl)
  obtain ⟨gs, rfl, hc⟩ := hP
  refine ⟨pg, _, _, width, height, _, a1.before, rfl, rfl, a2, ⟨rfl, gs, n, id, pg', rfl, hc, a4, ?_, a5⟩, hr, a1.later (addImage_version hg)⟩
  have := a1.after
  unfold PdfD.cur at this
  rwa [a1.index] at this

/-- `_add_parts` -/
theorem drawn_parts (hT : T.Ok) : ∀ (l : List DocPart) {p p' : FProc} {s s' : PdfD} {runs : List Painted}, DrawnDoc E L W s runs → (∀ a ∈ l, PartOk T refOf L a) →
    s.addParts E T.fmt.toNumFmt (l.map DocPart.part) p = .ok (p', s') →
    ∃ rs, List.Forall₂ (PieceShows T s') (l.map some) rs ∧ DrawnDoc E L W s' (runs ++ rs) ∧ Later s s' := by
  intro l
  induction l with
  | nil =>
    intro p p' s s' runs hs _ h
    cases h
    exact ⟨[], .nil, by simpa using hs, .refl _⟩
  | cons a l ih =>
    intro p p' s s' runs hs hok h
    simp only [List.map_cons, PdfD.addParts] at h
    cases h1 : s.addPart E T.fmt.toNumFmt p a.part with
    | error e => rw [h1] at h; cases h
    | ok q =>
      rw [h1] at h
      have : ∃ r, PieceShows T q.2 (some a) r ∧ DrawnDoc E L W q.2 (runs ++ [r]) ∧ Later s q.2 := by
        cases a with
        | par x y width height text graphics used ids cfg lines =>
          simp only [DocPart.part, PdfD.addPart] at h1
          cases h2 : s.doc.addText E T.fmt.toNumFmt p x y width height text graphics used ids c!"bottom" with
          | error e => rw [h2] at h1; cases h1
          | ok t =>
            rw [h2] at h1
            cases h1
            exact drawn_text hT (p' := t.1) (d := t.2) hs (hok _ (by simp)) h2
        | image im x y width height =>
          simp only [DocPart.part, PdfD.addPart] at h1
          cases h2 : s.addImage T.fmt.toNumFmt im (some x) (some y) (some width) (some height) c!"bottom" with
          | error e => rw [h2] at h1; cases h1
          | ok t =>
            rw [h2] at h1
            cases h1
            obtain ⟨pg, X, Y, w, hh, r, -, rfl, rfl, k1, k2⟩ := drawn_image hT hs (hok (.image im x y width height) (by simp)) h2
            obtain ⟨b1, b2, -⟩ := k1
            obtain rfl := b1 _ rfl
            obtain rfl := b2 _ rfl
            exact ⟨r, k2⟩
      obtain ⟨r, c1, c2, c3⟩ := this
      obtain ⟨rs, d1, d2, d3⟩ := ih c2 (fun b hb => hok b (by simp [hb])) h
      exact ⟨r :: rs, .cons (c1.later d3) d1, by simpa using d2, c3.trans d3⟩

/-- fills and lines that can be written are all painted, in their order, by the first piece -/
def GraphicsShown (T : TextEnv) (gs : List Graphic) (rs : List Painted) : Prop :=
  (∀ g ∈ gs, g.Ok) → ∃ r gs0, rs.head? = some r ∧ gs0.cms = [] ∧ List.Forall₂ (Paints T.fmt.toNumFmt gs0) gs r.evs

/-- `_add_graphics` -/
theorem drawn_graphics (hT : T.Ok) {s s' : PdfD} {runs : List Painted} (hs : DrawnDoc E L W s runs) {gs : List Graphic}
    (h : s.addGraphics T.fmt.toNumFmt gs = .ok s') :
    ∃ r, PieceShows T s' none r ∧ DrawnDoc E L W s' (runs ++ [r]) ∧ Later s s' ∧ GraphicsShown T gs [r] := by
  unfold PdfD.addGraphics at h
  cases h1 : createGraphics T.fmt.toNumFmt gs with
  | error e => rw [h1] at h; cases h
  | ok g =>
    rw [h1] at h
    simp only at h
    cases h2 : s.doc.pages[s.doc.pageIndex]? with
    | none => rw [h2] at h; cases h
    | some pg =>
      rw [h2] at h
      simp only at h
      cases h3 : pg.addStr g with
      | error e => rw [h3] at h; cases h
      | ok r =>
        rw [h3] at h
        cases h
        obtain ⟨_, e3⟩ := addStr_ok h3
        obtain ⟨a1, a2⟩ := addBytes_core (hs.inv.pages _ _ h2) (bytesOf g)
        rw [← e3] at a1 a2
        have d1 : Did s { s with doc := s.doc.onPage fun _ => r.2 } pg r.2 :=
          Did.page hs.inv h2 (f := fun _ => r.2) (by rw [e3]; rfl) (by rw [e3]; exact ⟨rfl, rfl, rfl⟩) a2
        obtain ⟨ops, q1, q2, q3⟩ := createGraphics_silent hT.fmt.1 h1
        obtain ⟨evs, ⟨hP, hG⟩, hr⟩ := hs.step (P := fun evs => (∀ e ∈ evs, Event.mute e) ∧
            ((∀ g ∈ gs, g.Ok) → ∃ gs0 : GS, gs0.cms = [] ∧ List.Forall₂ (Paints T.fmt.toNumFmt gs0) gs evs)) d1
          (hs.out.hush (Hush.setPage h2 (by rw [e3]; rfl) (by rw [e3]; rfl))) hs.imgs (mk := none)
          (fun _ sizes hi => by simpa using hi.setPage h2 (pg' := r.2) (by rw [e3]; rfl) (by rw [e3]; rfl) (by rw [e3]; rfl) (by rw [e3]; rfl)) rfl
          (fun _ _ _ hc => hc.setPage h2 (by rw [e3]; rfl) (by rw [e3]; rfl) (by rw [e3]; rfl)) a1 q1 q2 (by
            intro m hp ht hc
            obtain ⟨evs, g1, g2⟩ := q3 m hp ht
            refine ⟨m.gs, evs, ?_, hc, g2, fun hok => ?_⟩
            swap
            · obtain ⟨g', ev, k1, k2, k3⟩ := C18_paints_partial T.fmt.toNumFmt hT.fmt.1 gs hok m hp ht
              rw [h1] at k1
              cases k1
              rw [execStream, q1.ops] at k2
              simp only [g1, Option.some.injEq, Prod.mk.injEq, true_and] at k2
              subst k2
              exact ⟨m.gs, hc, k3⟩
            rw [g1]
            obtain ⟨gs, st, pa, te⟩ := m
            cases hp
            cases ht
            rfl)
        refine ⟨⟨s.doc.pageIndex, evs, none⟩, ⟨rfl, hP⟩, hr, d1.later rfl, fun hok => ?_⟩
        obtain ⟨gs0, k1, k2⟩ := hG hok
        exact ⟨_, gs0, rfl, k1, k2⟩

/-- the fills and lines of a run, and its parts -/
def FlowOut.marks {σ : Type} (o : FlowOut σ) : List (Option DocPart) := none :: o.parts.map some

theorem movePage_obj (move : Str) (a b : Rat) (p : Page) : (movePage move a b p).objId = p.objId ∧ (movePage move a b p).annots = p.annots := by
  unfold movePage
  simp only [Page.setY]
  split <;> split <;> exact ⟨rfl, rfl⟩

/-- the end of `_table` and of `_content` -/
theorem drawn_box (hT : T.Ok) {σ : Type} {o : FlowOut σ} {p p' : FProc} {s s' : PdfD} {runs : List Painted} (hs : DrawnDoc E L W s runs)
    (hok : ∀ a ∈ o.parts, PartOk T refOf L a) {width : Rat} (h : s.addBox E T.fmt.toNumFmt p o.box width c!"bottom" = .ok (p', s')) :
    ∃ rs, List.Forall₂ (PieceShows T s') o.marks rs ∧ DrawnDoc E L W s' (runs ++ rs) ∧ Later s s' ∧ GraphicsShown T (o.fills ++ o.lines) rs := by
  unfold PdfD.addBox at h
  cases h1 : s.addGraphics T.fmt.toNumFmt (o.box.fills ++ o.box.lines) with
  | error e => rw [h1] at h; cases h
  | ok s1 =>
    rw [h1] at h
    simp only at h
    cases h2 : s1.addParts E T.fmt.toNumFmt o.box.parts p with
    | error e => rw [h2] at h; cases h
    | ok t =>
      rw [h2] at h
      simp only [Except.ok.injEq, Prod.mk.injEq] at h
      obtain ⟨-, rfl⟩ := h
      obtain ⟨r, a1, a2, a3, a4⟩ := drawn_graphics hT hs h1
      obtain ⟨rs, b1, b2, b3⟩ := drawn_parts hT o.parts a2 hok (p' := t.1) (s' := t.2) h2
      have hidx : t.2.doc.pages ≠ [] := by
        intro e
        have := b2.bound r (by simp)
        rw [e] at this
        simp at this
      obtain ⟨q, hq⟩ : ∃ q, t.2.cur = some q := by
        have := b2.index hidx
        exact ⟨_, List.getElem?_eq_getElem (show t.2.doc.pageIndex < t.2.doc.pages.length by omega)⟩
      obtain ⟨m1, m2, m3, m4, m5, m6⟩ := moved_same c!"bottom" width o.box.height q.core
      rw [← movePage_core] at m1 m2 m3 m4 m5 m6
      obtain ⟨n1, n2⟩ := movePage_obj c!"bottom" width o.box.height q
      obtain ⟨c1, c2⟩ := b2.still hq (pg' := movePage c!"bottom" width o.box.height q) n1 n2 m1 m6 m2 ⟨m3, m4, m5⟩
        (by rw [movePage_core]; exact (b2.inv.pages _ _ hq).moved _ _ _) (movePage_fonts _ _ _ _)
      have e : (t.2.doc.onPage fun _ => movePage c!"bottom" width o.box.height q) = t.2.doc.onPage (movePage c!"bottom" width o.box.height) := by
        unfold PdfT.onPage
        congr 1
        apply List.ext_getElem?
        intro j
        by_cases hj : j = t.2.doc.pageIndex
        · subst hj
          rw [modify_at hq, modify_at hq]
        · rw [modify_other hj, modify_other hj]
      rw [e] at c1 c2
      refine ⟨r :: rs, .cons ((a1.later b3).later c2) (b1.imp fun _ _ h => h.later c2), by simpa using c1, (a3.trans b3).trans c2, a4⟩

theorem DrawnDoc.place {s : PdfD} {runs : List Painted} (hs : DrawnDoc E L W s runs) {page : Page} (hp : s.doc.pages[s.doc.pageIndex]? = some page) (x y w h : Option Rat) :
    DrawnDoc E L W { s with doc := s.doc.onPage fun _ => (page.positionAndSize x y w h).2 } runs ∧
      Later s { s with doc := s.doc.onPage fun _ => (page.positionAndSize x y w h).2 } := by
  obtain ⟨a1, a2, a3, a4, a5, a6, a7⟩ := positionAndSize_same page x y w h
  have p2 : (page.positionAndSize x y w h).2.core.Ok := by
    have := hs.inv.pages _ _ hp
    unfold Page.positionAndSize
    cases y <;> exact ⟨this.1, this.2, this.3, this.4⟩
  have hx : (page.positionAndSize x y w h).2.xres = page.xres := by
    unfold Page.positionAndSize
    cases y <;> rfl
  exact hs.still hp a1 a2 a3 a4 hx ⟨congrArg Sheet.w a5, congrArg Sheet.h a5, a6⟩ p2 (by
    unfold Page.positionAndSize
    cases y <;> rfl)

/-! ### Paragraphs of a document -/

/-- `_text` -/
theorem drawn_putText (hT : T.Ok) {p p' : FProc} {s s' : PdfD} {t t' : TextObj} {runs : List Painted} (hs : DrawnDoc E L W s runs)
    (hr : Readable T.fmt refOf t.args.cfg) (hreach : TReach T.metrics t.args.cfg t.pos) {x y w h : Option Rat}
    (hp : s.putText E T p t x y w h = .ok ((p', s'), t')) :
    ∃ (r : Painted) (width height : Rat), t'.args = t.args ∧ t'.pos = (textRun T.metrics t.args.cfg width height t.pos).pos ∧
      Same (eventToks none r.evs) (.sep :: (textRun T.metrics t.args.cfg width height t.pos).lines.flatMap lineChars) ∧
      (∀ font, eventGlyphs font r.evs = (textRun T.metrics t.args.cfg width height t.pos).lines.flatMap (lineGlyphs T.fmt font)) ∧
      (∀ e ∈ r.evs, Event.plain e) ∧ DrawnDoc E L W s' (runs ++ [r]) ∧ Later s s' := by
  unfold PdfD.putText at hp
  cases h1 : s.doc.pages[s.doc.pageIndex]? with
  | none => rw [h1] at hp; cases hp
  | some page =>
    rw [h1] at hp
    simp only at hp
    obtain ⟨b1, b2⟩ := hs.place h1 x y w h
    generalize (page.positionAndSize x y w h) = q at hp b1 b2
    cases h2 : textOut T.fmt T.metrics T.encs t.args.cfg t.args.enc q.1.2.2.1 q.1.2.2.2 t.pos t.correct with
    | error e => rw [h2] at hp; cases hp
    | ok o =>
      rw [h2] at hp
      simp only at hp
      split at hp
      · cases hp
      · rename_i d hd
        cases hp
        obtain ⟨r, c1, c2, c3⟩ := drawn_text (refOf := refOf) hT b1 (p' := d.1) (d := d.2) (cfg := t.args.cfg)
          (lines := (textRun T.metrics t.args.cfg q.1.2.2.1 q.1.2.2.2 t.pos).lines)
          ⟨t.args.enc, q.1.2.2.2, t.pos, t.correct, o, hr, hreach, h2, rfl, rfl, rfl, rfl, rfl⟩ hd
        exact ⟨r, _, _, rfl, rfl, c1.2.2.1, c1.2.2.2.2.2, c1.2.2.2.1, c2, b2.trans c3⟩

/-- the loop of `text` -/
theorem drawn_moreText (hT : T.Ok) {k : Sheet} (hW : W (k.w - k.right - k.left)) : ∀ (fuel : Nat) {p p' : FProc} {s s' : PdfD} {t : TextObj}
    {runs : List Painted} {rects : List (Rat × Rat)} {evs : List (List Event)}, DrawnDoc E L W s runs → Readable T.fmt refOf t.args.cfg →
      t.pos = (textRuns T.metrics t.args.cfg rects TPos.init).1 → ShownRuns T t.args.cfg rects evs →
      s.moreText E T k fuel p t = .ok (p', s') →
      ∃ (rs : List Painted) (rects' : List (Rat × Rat)), DrawnDoc E L W s' (runs ++ rs) ∧ Later s s' ∧ ShownRuns T t.args.cfg rects' (evs ++ rs.map Painted.evs) ∧
        (textRuns T.metrics t.args.cfg rects' TPos.init).1.finished = true ∧ ∀ r ∈ rs, ∀ e ∈ r.evs, Event.plain e := by
  intro fuel
  induction fuel with
  | zero =>
    intro p p' s s' t runs rects evs hs hr hpos hsh h
    simp only [PdfD.moreText] at h
    split at h
    · rename_i hf
      cases h
      exact ⟨[], rects, by simpa using hs, .refl _, by simpa using hsh, by rw [← hpos]; exact hf, by simp⟩
    · cases h
  | succ n ih =>
    intro p p' s s' t runs rects evs hs hr hpos hsh h
    simp only [PdfD.moreText] at h
    split at h
    · rename_i hf
      cases h
      exact ⟨[], rects, by simpa using hs, .refl _, by simpa using hsh, by rw [← hpos]; exact hf, by simp⟩
    · rename_i hf
      have hf' : t.pos.finished = false := by simpa using hf
      split at h
      · cases h
      · rename_i page hpage
        split at h
        · cases h
        · rename_i r hput
          obtain ⟨⟨p1, s1⟩, t1⟩ := r
          obtain ⟨hn, hl⟩ := drawn_nextPage hs hW
          obtain ⟨e, w, ht, a1, a2, a3, a4, a5, a6, a7⟩ := drawn_putText hT (s' := s1) hn hr ⟨rects, hpos, hf'⟩ hput
          rw [hpos] at a2 a3 a4
          obtain ⟨b1, b2⟩ := hsh.snoc (by rw [← hpos]; exact hf') a3 a4
          obtain ⟨rs, rects', c1, c2, c3, c4, c5⟩ := ih (t := t1) a6 (by rw [a1]; exact hr) (rects := rects ++ [(w, ht)]) (by rw [a1, b2, a2])
            (by rw [a1]; exact b1) h
          rw [a1] at c3 c4
          refine ⟨e :: rs, rects', by simpa using c1, (hl.trans a7).trans c2, by simpa using c3, c4, ?_⟩
          intro r hr
          rcases List.mem_cons.1 hr with rfl | hr
          · exact a5
          · exact c5 r hr

/-- `text` -/
theorem drawn_call (hT : T.Ok) {k : Sheet} (hW : W (k.w - k.right - k.left)) {fuel : Nat} {p p' : FProc} {s s' : PdfD} {a : TextArgs}
    {runs : List Painted} (hs : DrawnDoc E L W s runs) (hr : Readable T.fmt refOf a.cfg) (h : s.text E T k fuel p a = .ok (p', s')) :
    ∃ rs : List Painted, DrawnDoc E L W s' (runs ++ rs) ∧ Later s s' ∧ wordsOf (rs.flatMap fun r => eventToks none r.evs) = contentWordsOf a.cfg.content ∧
      (∀ r ∈ rs, ∀ e ∈ r.evs, Event.plain e) ∧
      ∀ font, eventGlyphs font (rs.flatMap Painted.evs) = namedGlyphs T.fmt font a.cfg.content := by
  unfold PdfD.text at h
  split at h
  · cases h
  · rename_i page hpage
    split at h
    · cases h
    · rename_i r hput
      obtain ⟨⟨p1, s1⟩, t1⟩ := r
      obtain ⟨e, w, ht, a1, a2, a3, a4, a5, a6, a7⟩ := drawn_putText (t := a.start) (s' := s1) hT hs hr ⟨[], rfl, rfl⟩ hput
      obtain ⟨b1, b2⟩ := ShownRuns.snoc (T := T) (cfg := a.cfg) (rects := []) (evs := []) .nil rfl a3 a4
      have e1 : t1.args = a := a1
      obtain ⟨rs, rects', c1, c2, c3, c4, c5⟩ := drawn_moreText hT hW fuel (t := t1) a6 (by rw [e1]; exact hr) (rects := [] ++ [(w, ht)]) (by rw [e1, b2, a2]; rfl)
        (by rw [e1]; exact b1) h
      rw [e1] at c3 c4
      refine ⟨e :: rs, by simpa using c1, a7.trans c2, ?_, ?_, ?_⟩
      · rw [← lines_chars T.metrics a.cfg rects' c4, ← runs_words _ _ (c3.imp fun _ _ h => h.1)]
        simp [List.flatMap_map]
      · intro r hr
        rcases List.mem_cons.1 hr with rfl | hr
        · exact a5
        · exact c5 r hr
      · intro font
        rw [← content_glyphs T.fmt font T.metrics a.cfg rects' c4, ← runs_glyphs font _ _ (c3.imp fun _ _ h => h.2 font)]
        simp [List.flatMap_def]

/-! ### Tables and content boxes -/

/-- one run after the other -/
def FlowChain {σ : Type} (run : σ → Rat → Rat → Rat → Rat → CRun (FlowOut σ)) : σ → List (Rat × Rat × Rat × Rat) → List (FlowOut σ) → Prop
  | _, [], [] => True
  | c, (x, y, w, h) :: l, o :: os => run c x y w h = .ok o ∧ (l ≠ [] → o.finished = false) ∧ FlowChain run o.next l os
  | _, _, _ => False

/-- what the runs of a content have to keep for what they leave to be shown -/
def FlowSafe {σ : Type} (T : TextEnv) (refOf : Str → Str → Str) (L : PImg → Prop) (W : Rat → Prop) (I : σ → Prop)
    (run : σ → Rat → Rat → Rat → Rat → CRun (FlowOut σ)) : Prop :=
  ∀ c x y w h o, W w → I c → run c x y w h = .ok o → (∀ a ∈ o.parts, PartOk T refOf L a) ∧ (o.finished = false → I o.next)

section
variable {σ : Type} {I : σ → Prop} {run : σ → Rat → Rat → Rat → Rat → CRun (FlowOut σ)}

/-- `_table` and `_content` -/
theorem drawn_putFlow (hT : T.Ok) (H : FlowSafe T refOf L W I run) {p : FProc} {s : PdfD} {c : σ} {runs : List Painted} (hs : DrawnDoc E L W s runs) (hc : I c)
    {x y h : Option Rat} {page : Page} (hpage : s.doc.pages[s.doc.pageIndex]? = some page) {r : (FProc × PdfD) × FlowOut σ}
    (hp : s.putFlow E T.fmt.toNumFmt run p c x y (some page.contentWidth) h = .ok r) :
    ∃ (rect : Rat × Rat × Rat × Rat) (rs : List Painted), W rect.2.2.1 ∧ run c rect.1 rect.2.1 rect.2.2.1 rect.2.2.2 = .ok r.2 ∧ (r.2.finished = false → I r.2.next) ∧
      List.Forall₂ (PieceShows T r.1.2) r.2.marks rs ∧ DrawnDoc E L W r.1.2 (runs ++ rs) ∧ Later s r.1.2 := by
  unfold PdfD.putFlow at hp
  rw [hpage] at hp
  simp only at hp
  obtain ⟨b1, b2⟩ := hs.place hpage x y (some page.contentWidth) h
  have hw : W (page.positionAndSize x y (some page.contentWidth) h).1.2.2.1 := (hs.page _ _ hpage).2
  generalize (page.positionAndSize x y (some page.contentWidth) h) = q at hp b1 b2 hw
  cases h1 : run c q.1.1 q.1.2.1 q.1.2.2.1 q.1.2.2.2 with
  | error e => rw [h1] at hp; cases hp
  | ok o =>
    rw [h1] at hp
    simp only at hp
    split at hp
    · cases hp
    · rename_i d hd
      cases hp
      obtain ⟨a1, a2⟩ := H _ _ _ _ _ _ hw hc h1
      obtain ⟨rs, c1, c2, c3, -⟩ := drawn_box hT b1 a1 (p' := d.1) (s' := d.2) hd
      exact ⟨q.1, rs, hw, h1, a2, c1, c2, b2.trans c3⟩

/-- the loops of `table` and `content` -/
theorem drawn_moreFlow (hT : T.Ok) (H : FlowSafe T refOf L W I run) {k : Sheet} (hW : W (k.w - k.right - k.left)) : ∀ (fuel : Nat) {p p' : FProc} {s s' : PdfD}
    {o : FlowOut σ} {runs : List Painted}, DrawnDoc E L W s runs → (o.finished = false → I o.next) → s.moreFlow E T.fmt.toNumFmt run k fuel p o = .ok (p', s') →
    ∃ (rects : List (Rat × Rat × Rat × Rat)) (outs : List (FlowOut σ)) (rs : List Painted), FlowChain run o.next rects outs ∧ (rects ≠ [] → o.finished = false) ∧ (∀ r ∈ rects, W r.2.2.1) ∧
      (∃ o', (o :: outs).getLast? = some o' ∧ o'.finished = true) ∧ List.Forall₂ (PieceShows T s') (outs.flatMap FlowOut.marks) rs ∧
      DrawnDoc E L W s' (runs ++ rs) ∧ Later s s' := by
  intro fuel
  induction fuel with
  | zero =>
    intro p p' s s' o runs hs _ h
    simp only [PdfD.moreFlow] at h
    split at h
    · rename_i hf
      cases h
      exact ⟨[], [], [], trivial, by simp, by simp, ⟨o, rfl, hf⟩, .nil, by simpa using hs, .refl _⟩
    · cases h
  | succ n ih =>
    intro p p' s s' o runs hs hI h
    simp only [PdfD.moreFlow] at h
    split at h
    · rename_i hf
      cases h
      exact ⟨[], [], [], trivial, by simp, by simp, ⟨o, rfl, hf⟩, .nil, by simpa using hs, .refl _⟩
    · rename_i hf
      have hf : o.finished = false := by simpa using hf
      split at h
      · cases h
      · rename_i page hpage
        split at h
        · cases h
        · rename_i r hput
          obtain ⟨hn, hl⟩ := drawn_nextPage hs hW
          obtain ⟨rect, rs, a1, a2, a3, a4, a5, a6⟩ := drawn_putFlow hT H hn (hI hf) hpage hput
          obtain ⟨rects, outs, rs', c1, c0, c2, ⟨o', c3, c4⟩, c5, c6, c7⟩ := ih a5 a3 h
          refine ⟨rect :: rects, r.2 :: outs, rs ++ rs', ⟨a2, c0, c1⟩, fun _ => hf, ?_, ⟨o', ?_, c4⟩, ?_, by simpa using c6, (hl.trans a6).trans c7⟩
          · intro r hr
            rcases List.mem_cons.1 hr with rfl | hr
            · exact a1
            · exact c2 r hr
          · rw [List.getLast?_cons_cons]
            exact c3
          · rw [List.flatMap_cons]
            exact List.rel_append (a4.imp fun _ _ h => h.later c7) c5

/-- `table` and `content` -/
theorem drawn_flow (hT : T.Ok) (H : FlowSafe T refOf L W I run) {k : Sheet} (hW : W (k.w - k.right - k.left)) {fuel : Nat} {p p' : FProc} {s s' : PdfD}
    {c : σ} {runs : List Painted} (hs : DrawnDoc E L W s runs) (hI : I c) (h : s.flow E T.fmt.toNumFmt run k fuel p c = .ok (p', s')) :
    ∃ (rects : List (Rat × Rat × Rat × Rat)) (outs : List (FlowOut σ)) (rs : List Painted), FlowChain run c rects outs ∧ (∀ r ∈ rects, W r.2.2.1) ∧
      (∃ o', outs.getLast? = some o' ∧ o'.finished = true) ∧ List.Forall₂ (PieceShows T s') (outs.flatMap FlowOut.marks) rs ∧
      DrawnDoc E L W s' (runs ++ rs) ∧ Later s s' := by
  unfold PdfD.flow at h
  split at h
  · cases h
  · rename_i page hpage
    split at h
    · cases h
    · rename_i r hput
      obtain ⟨rect, rs, a1, a2, a3, a4, a5, a6⟩ := drawn_putFlow hT H hs hI hpage hput
      obtain ⟨rects, outs, rs', c1, c0, c2, c3, c5, c6, c7⟩ := drawn_moreFlow hT H hW fuel a5 a3 h
      refine ⟨rect :: rects, r.2 :: outs, rs ++ rs', ⟨a2, c0, c1⟩, ?_, c3, ?_, by simpa using c6, a6.trans c7⟩
      · intro r hr
        rcases List.mem_cons.1 hr with rfl | hr
        · exact a1
        · exact c2 r hr
      · rw [List.flatMap_cons]
        exact List.rel_append (a4.imp fun _ _ h => h.later c7) c5

end

theorem drawn_new {p p' : FProc} {version : Str} {d : PdfT} (h : PdfT.new E p version = .ok (p', d)) : DrawnDoc E L W ⟨d, []⟩ [] := by
  have hp := new_pages h
  refine ⟨new_inv h, ⟨(new_inv h).wf, ?_⟩, fun h => absurd hp h, ?_, by simp, by simp, (by intro n id hn; cases hn), fun _ => ⟨_, OpsInv.history (F := sampleFmt) (ops := []) (p := p) (p' := p') (version := version)
      (by simp [docImages]) (by unfold PdfD.history; rw [h]; rfl)⟩, fun hE _ _ hv => new_clean hE ?_ h⟩
  rotate_right
  · rwa [new_version h] at hv
  all_goals
  · intro i pg hi
    have : d.pages[i]? = some pg := hi
    rw [hp] at this
    simp at this

end Verif
