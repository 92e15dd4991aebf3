import Verif.Lemmas.TextIds
import Verif.Props.C84_Book
import Verif.Props.C91_Writable
/-! Lemmas for C91: the ids that the pieces of a document carry are those of its paragraphs. -/
namespace Verif
open Spec

/-- the ids of a paragraph -/
def Spec.leafIds : DocLeaf → List Str
  | .par a _ _ => contentIds a.cfg.content
  | .image _ _ => []

/-- the ids of the paragraphs of a content box -/
def Spec.BoxHasId (b : DocBox) (id : Str) : Prop := ∃ k, id ∈ boxHeld leafIds (fun _ => []) b k

/-- contents as in `docSpec`, with ids that `Q` holds for -/
def idSpec (T : TextEnv) (refOf : Str → Str → Str) (Q : Str → Prop) : LSpec DocLeaf where
  atoms := (docSpec T refOf).atoms
  fit l w := (docSpec T refOf).fit l w ∧ ∀ i ∈ leafIds l, Q i
  fresh := (docSpec T refOf).fresh
  void := (docSpec T refOf).void

def idNest (T : TextEnv) (refOf : Str → Str → Str) (Q : Str → Prop) (n : Nat) : NSpec (DocNest n) := nestSpec (idSpec T refOf Q) LineLook (PDFColor Rat) n

section
variable {T : TextEnv} {refOf : Str → Str → Str} {Q : Str → Prop} {fuel : Nat}

/-- the ids of a content of a table -/
theorem mem_rows {σ B C A : Type} {f : σ → List A} {D : TabData σ B C} {i j : Nat} {c : Cell σ C} {x : σ} (hc : cellAt D.content i j = some c) (hx : c.content = some x) {a : A}
    (ha : a ∈ f x) : a ∈ D.content.flatMap fun row => row.flatMap fun c => restOf f (c.bind (·.content)) := by
  unfold cellAt at hc
  cases hr : D.content[i]? with
  | none => rw [hr] at hc; cases hc
  | some row =>
    rw [hr] at hc
    cases hj : row[j]? with
    | none => rw [Option.bind_some, hj] at hc; cases hc
    | some c' =>
      rw [Option.bind_some, hj] at hc
      have e : c' = some c := by simpa using hc
      refine List.mem_flatMap.2 ⟨row, List.mem_of_getElem? hr, List.mem_flatMap.2 ⟨c', List.mem_of_getElem? hj, ?_⟩⟩
      rw [e]
      simp only [Option.bind_some, hx]
      exact ha

theorem idNest_same : ∀ n, (docNest T refOf n).tags = (idNest T refOf Q n).tags ∧ (docNest T refOf n).fresh = (idNest T refOf Q n).fresh ∧
    (∀ c, (docNest T refOf n).void c → (idNest T refOf Q n).void c) ∧
    ∀ c w, (docNest T refOf n).fit c w → (∀ k, ∀ i ∈ nestHeld leafIds (fun _ => []) k n c, Q i) → (idNest T refOf Q n).fit c w
  | 0 => ⟨rfl, rfl, fun c => c.elim, fun c => c.elim⟩
  | n + 1 => by
    obtain ⟨h1, h2, h3, h4⟩ := idNest_same n
    have htab : (docNest T refOf n).elTags = (idNest T refOf Q n).elTags := by
      funext e
      cases e <;> simp [NSpec.elTags, h1]
    refine ⟨?_, ?_, ?_, ?_⟩
    · funext c
      cases c with
      | leaf t l => rfl
      | table D rects =>
        show (docNest T refOf n).tableTags D.content = (idNest T refOf Q n).tableTags D.content
        unfold NSpec.tableTags
        rw [h1]
      | box gap els rects =>
        show els.flatMap (docNest T refOf n).elTags = els.flatMap (idNest T refOf Q n).elTags
        rw [htab]
    · funext c
      cases c <;> rfl
    · intro c h
      cases c <;> exact h
    · intro c w h hq
      cases c with
      | leaf t l =>
        refine ⟨h, fun i hi => hq t i ?_⟩
        show i ∈ if t = t then leafIds l else []
        rw [if_pos rfl]
        exact hi
      | table D rects =>
        have hD : TableFit (docNest T refOf n) D (w :: rects.map (·.2.2.1)) := h
        show TableFit (idNest T refOf Q n) D (w :: rects.map (·.2.2.1))
        exact ⟨hD.spans, hD.rows, hD.border, hD.style, hD.cells, hD.cols, h3 _ hD.blank, h2 ▸ hD.fresh,
          fun i j c x k1 k2 W hW i' => h4 _ _ (hD.fits i j c x k1 k2 W hW i') fun k id hid => hq k id (mem_rows k1 k2 hid), by
            have := hD.tags
            unfold NSpec.tableTags at this ⊢
            rw [← h1]
            exact this⟩
      | box gap els rects =>
        have hb : BoxFit (docNest T refOf n) els (w :: rects.map (·.2.2.1)) := h
        show BoxFit (idNest T refOf Q n) els (w :: rects.map (·.2.2.1))
        exact ⟨hb.tidy, h2 ▸ hb.fresh, fun c st hc W hW => h4 _ _ (hb.fits c st hc W hW) fun k id hid => hq k id (List.mem_flatMap.2 ⟨_, hc, hid⟩), htab ▸ hb.tags⟩

theorem box_ids {b : DocBox} {Ws : List Rat} (hb : BoxFit (docNest T refOf b.depth) b.els Ws) (hq : ∀ i, BoxHasId b i → Q i) : BoxFit (idNest T refOf Q b.depth) b.els Ws := by
  obtain ⟨h1, h2, -, h4⟩ := idNest_same (T := T) (refOf := refOf) (Q := Q) b.depth
  have htab : (docNest T refOf b.depth).elTags = (idNest T refOf Q b.depth).elTags := by
    funext e
    cases e <;> simp [NSpec.elTags, h1]
  exact ⟨hb.tidy, h2 ▸ hb.fresh, fun c st hc W hW => h4 _ _ (hb.fits c st hc W hW) fun k id hid => hq id ⟨k, List.mem_flatMap.2 ⟨_, hc, hid⟩⟩, htab ▸ hb.tags⟩

theorem leafIds_next {l : DocLeaf} {x y w h : Rat} {o : CellOut DocLeaf DocPart LineLook (PDFColor Rat)} (ho : docExec T l x y w h = .ok o) : leafIds o.next = leafIds l := by
  cases l with
  | par a rects correct =>
    simp only [docExec, docParExec] at ho
    split at ho
    · cases ho; rfl
    · split at ho
      · cases ho
      · cases ho; rfl
  | image im shown =>
    cases shown with
    | true => cases ho; rfl
    | false =>
      simp only [docExec, docImageExec] at ho
      split at ho
      · cases ho
      · split at ho
        · cases ho; rfl
        · cases ho; rfl

theorem id_good : LGood (fun p => leafPartAtoms p.leaf) (idSpec T refOf Q) (docExec T) where
  rest := by
    obtain ⟨rest, h1, h2⟩ := (doc_good (T := T) (refOf := refOf)).rest
    have sub : ∀ {c x y w h o}, lguard (idSpec T refOf Q) (docExec T) c x y w h = .ok o → lguard (docSpec T refOf) (docExec T) c x y w h = .ok o := by
      intro c x y w h o ho
      unfold lguard at ho ⊢
      split at ho
      · rename_i hf
        rw [if_pos (show (docSpec T refOf).fit c w from hf.1)]
        exact ho
      · cases ho
    exact ⟨rest, ⟨fun c x y w h o ho => h1.step c x y w h o (sub ho), fun c x y w h o ho => h1.done c x y w h o (sub ho),
      fun c x y w h o ho => h1.zero c x y w h o (sub ho)⟩, h2⟩
  next := fun l x y w h o w' ho hf => ⟨doc_good.next l x y w h o w' ho hf.1, by rw [leafIds_next ho]; exact hf.2⟩
  void := by
    intro l hl
    obtain ⟨h1, h2, h3⟩ := doc_good.void l hl
    refine ⟨fun w => ⟨h1 w, ?_⟩, h2, h3⟩
    cases l with
    | par a rects correct =>
      have : a.cfg.content = [] := hl.2.2.1
      intro i hi
      simp [leafIds, contentIds, this] at hi
    | image im b => intro i hi; cases hi

/-- the ids of a part -/
def PartIds (Q : Str → Prop) : DocPart → Prop
  | .par _ _ _ _ _ _ _ ids _ _ => ∀ e ∈ ids, Q e.1
  | .image .. => True

theorem id_parts : ∀ l x y w h o, (idSpec T refOf Q).fit l w → docExec T l x y w h = .ok o → ∀ p ∈ o.parts, PartIds Q p := by
  intro l x y w h o hf ho p hp
  cases l with
  | par a rects correct =>
    simp only [docExec, docParExec] at ho
    split at ho
    · cases ho
      cases hp
    · split at ho
      · cases ho
      · rename_i o' ht
        cases ho
        rw [List.mem_singleton.1 hp]
        exact fun e he => hf.2 _ (textOut_keys ht e he)
  | image im shown =>
    cases shown with
    | true =>
      cases ho
      cases hp
    | false =>
      simp only [docExec, docImageExec] at ho
      split at ho
      · cases ho
      · split at ho
        · cases ho
          rw [List.mem_singleton.1 hp]
          trivial
        · cases ho
          cases hp

/-- the parts of a content box -/
theorem content_ids {b : DocBox} {Ws : List Rat} (hb : BoxFit (idNest T refOf Q b.depth) b.els Ws)
    {c : CContent (DocNest b.depth) (TagPart DocPart) LineLook (PDFColor Rat)} (hc : BoxState T fuel b Ws c) {x y w h : Rat} (hw : w ∈ Ws)
    {o : FlowOut (CContent (DocNest b.depth) (TagPart DocPart) LineLook (PDFColor Rat))} (ho : contentFlow T fuel b c x y w h = .ok o) :
    ∀ p ∈ o.parts, PartIds Q p := by
  obtain ⟨hf, rects, ps, hW, hr⟩ := hc
  unfold contentFlow at ho
  split at ho
  · cases ho
  · rename_i s' hs
    split at ho
    · cases ho
    · cases ho
      have hr' : (CContent.new 1 b.gap b.els).runs (docNestExec T fuel b.depth) fuel (rects ++ [(x, y, w, h)]) = .ok (ps ++ s'.out.parts, s') := by
        rw [contentBox_runs_snoc, hr]
        simp [hf, hs]
      have hW' : ∀ r ∈ rects ++ [(x, y, w, h)], r.2.2.1 ∈ Ws := by
        intro r hr
        rcases List.mem_append.1 hr with hr | hr
        · exact hW r hr
        · simp only [List.mem_singleton] at hr
          subst hr
          exact hw
      intro p hp
      obtain ⟨q, hq, rfl⟩ := List.mem_map.1 hp
      have h1 := box_parts (nest_good id_good fuel b.depth) (nest_parts (B := LineLook) (C := PDFColor Rat) (P := PartIds Q) id_good id_parts fuel b.depth) hb hW' hr' q (List.mem_append.2 (Or.inr hq))
      cases hj : q.join with
      | leaf l => rw [hj] at h1; exact h1
      | image => trivial

theorem piece_ids {s : PdfD} {a : Option DocPart} {r : Painted} (h : PieceShows T s a r) (ha : ∀ p, a = some p → PartIds Q p) : ∀ m, r.mark = some m → ∀ e ∈ m.ids, Q e.1 := by
  intro m hm
  cases a with
  | none => rw [h.1] at hm; cases hm
  | some p =>
    cases p with
    | par x y w ht text graphics used ids cfg lines =>
      rw [h.1] at hm
      cases hm
      exact ha _ rfl
    | image im x y w ht => rw [h.1] at hm; cases hm

theorem flow_ids {s : PdfD} {b : DocBox} {Ws : List Rat} (hb : BoxFit (docNest T refOf b.depth) b.els Ws) (hq : ∀ i, BoxHasId b i → Q i)
    {c : CContent (DocNest b.depth) (TagPart DocPart) LineLook (PDFColor Rat)} (hc : BoxState T fuel b Ws c) {x y w h : Rat} (hw : w ∈ Ws)
    {o : FlowOut (CContent (DocNest b.depth) (TagPart DocPart) LineLook (PDFColor Rat))} (ho : contentFlow T fuel b c x y w h = .ok o) {rs : List Painted}
    (hrs : List.Forall₂ (PieceShows T s) o.marks rs) : ∀ r ∈ rs, ∀ m, r.mark = some m → ∀ e ∈ m.ids, Q e.1 := by
  intro r hr
  obtain ⟨a, ha, hra⟩ := forall₂_right hrs r hr
  refine piece_ids hra fun p hp => ?_
  subst hp
  exact content_ids (box_ids hb hq) hc hw ho p (by simpa [FlowOut.marks] using ha)

theorem runs_ids {H : Rat} {s : PdfD} {shows : Str → DocBox} {l : List RunBox} {fs : List Bool} {rss : List (List Painted)} (h : RunsDrawn T fuel H s shows l fs rss)
    (hfit : ∀ b ∈ l, RunFits T refOf shows b) (hq : ∀ b ∈ l, ∀ i, BoxHasId (shows b.name) i → Q i) : ∀ r ∈ rss.flatten, ∀ m, r.mark = some m → ∀ e ∈ m.ids, Q e.1 := by
  induction h with
  | nil => intro r hr; cases hr
  | @cons b l fin fs rs rss h _ ih =>
    intro r hr
    rw [List.flatten_cons, List.mem_append] at hr
    rcases hr with hr | hr
    · obtain ⟨rect, o, ⟨e1, e2⟩, e3, e4, -⟩ := h
      obtain ⟨w, k1, k2⟩ := hfit b List.mem_cons_self
      rw [k1] at e1
      cases e1
      exact flow_ids k2 (hq b List.mem_cons_self) ⟨rfl, [], [], by simp, rfl⟩ List.mem_cons_self e3 e4 r hr
    · exact ih (fun b hb => hfit b (List.mem_cons_of_mem _ hb)) (fun b hb => hq b (List.mem_cons_of_mem _ hb)) r hr

theorem plans_ids {B : Book} {s : PdfD} {plans : List BookPage} {gs : List PageGroup} (h : PlansDrawn T fuel B s plans gs)
    (hfit : ∀ p ∈ plans, ∀ b ∈ p.plan.boxes, RunFits T refOf (fun n => B.shows n p.plan.number) b)
    (hq : ∀ p ∈ plans, ∀ b ∈ p.plan.boxes, ∀ i, BoxHasId (B.shows b.name p.plan.number) i → Q i) : ∀ g ∈ gs, ∀ r ∈ g.1.flatten, ∀ m, r.mark = some m → ∀ e ∈ m.ids, Q e.1 := by
  induction h with
  | nil => intro g hg; cases hg
  | cons h _ ih =>
    intro g hg
    rcases List.mem_cons.1 hg with rfl | hg
    · exact runs_ids h (hfit _ List.mem_cons_self) (hq _ List.mem_cons_self)
    · exact ih (fun p hp => hfit p (List.mem_cons_of_mem _ hp)) (fun p hp => hq p (List.mem_cons_of_mem _ hp)) g hg

end

/-- a document built from what can be written holds only what can be written -/
theorem book_clean {E : PdfEnv} (hE : E.Fine) {T : TextEnv} (hT : T.Ok) {refOf : Str → Str → Str} {B : Book} {fuel : Nat} {version : Str} (hv : version.all isLatin = true)
    {setup : PageSetup} {offset : Int} {roman : Bool} {l : List BookSec} {p : FProc} {s : BookSt} (h : madeBook E T fuel B version setup offset roman l p = .ok s) {Ws : List Rat}
    (hW : ∀ pl ∈ s.plans, pl.plan.sheet.w - pl.plan.sheet.right - pl.plan.sheet.left ∈ Ws) (hl : ∀ d ∈ l, BoxFit (docNest T refOf d.box.depth) d.box.els Ws)
    (hr : ∀ pl ∈ s.plans, ∀ b ∈ pl.plan.boxes, RunFits T refOf (fun n => B.shows n pl.plan.number) b)
    (him : ∀ a ∈ bookOps B l s.plans, ∀ im, a.HasImage im → dictWritable im.obj = true)
    (hid : ∀ d ∈ l, ∀ i, BoxHasId d.box i → idWritable E.json i)
    (hid' : ∀ pl ∈ s.plans, ∀ b ∈ pl.plan.boxes, ∀ i, BoxHasId (B.shows b.name pl.plan.number) i → idWritable E.json i) :
    Clean s.pdf.doc ∧ OutInv s.pdf.doc ∧ l.length ≤ s.pdf.doc.pages.length := by
  unfold madeBook at h
  split at h
  · cases h
  · rename_i r hn
    obtain ⟨p0, s0⟩ := r
    have hops1 : ∀ d ∈ l, AddOp.content d.box ∈ bookOps B l s.plans := fun d hd => List.mem_append.2 (Or.inl (List.mem_map.2 ⟨d, hd, rfl⟩))
    have hops2 : ∀ pl ∈ s.plans, ∀ b ∈ pl.plan.boxes, AddOp.content (B.shows b.name pl.plan.number) ∈ bookOps B l s.plans := fun pl hpl b hb =>
      List.mem_append.2 (Or.inr (List.mem_flatMap.2 ⟨pl, hpl, List.mem_map.2 ⟨b, hb, rfl⟩⟩))
    have hdn : DrawnDoc E (fun im => ∃ a ∈ bookOps B l s.plans, a.HasImage im) anyW ⟨s0, []⟩ [] := drawn_new hn
    obtain ⟨gss, pls, h1, -, h2, ⟨h3, h3'⟩, h4, h5, -⟩ := book_run (E := E) (L := fun im => ∃ a ∈ bookOps B l s.plans, a.HasImage im) hT l (groups := []) hl
      (fun d hd im hi => ⟨_, hops1 d hd, hi⟩) ⟨hdn, by rw [new_pages hn]; rfl, by intro i g hi; simp at hi⟩ h
      (fun pl hpl => ⟨hW pl hpl, hr pl hpl, fun b hb im hi => ⟨_, hops2 pl hpl b hb, hi⟩⟩)
    rw [List.nil_append] at h2 h4
    subst h2
    refine ⟨h4.drawn.clean hE (fun im ⟨a, ha, hi⟩ => him a ha im hi) ?_ ?_, h4.drawn.out, ?_⟩
    · intro q hq e he _
      unfold runPlaces at hq
      obtain ⟨r, hr', hq⟩ := List.mem_filterMap.1 hq
      obtain ⟨g, hg, hr'⟩ := List.mem_flatMap.1 hr'
      cases hm : r.mark with
      | none => rw [hm] at hq; cases hq
      | some m =>
        rw [hm] at hq
        simp only [Option.map_some, Option.some.injEq] at hq
        subst hq
        rcases List.mem_append.1 hr' with hr' | hr'
        · exact plans_ids h3 hr hid' g hg r hr' m hm e he
        · obtain ⟨pl, hpl, d, hd, c, o, hc, ho, hrs, -⟩ := forall₂_right h3' g hg
          exact flow_ids (hl d hd) (hid d hd) hc (hW pl hpl) ho hrs r hr' m hm e he
    · rw [h5.version, show (⟨s0, []⟩ : PdfD).doc.base.version = version from new_version hn]
      exact hv
    · rw [← h4.length, h1.length_eq]
      have : ∀ gs ∈ gss, gs ≠ [] := fun gs hgs => by
        obtain ⟨d, -, hd⟩ := forall₂_right h1 gs hgs
        exact hd.1
      clear h1 h3 h3' h4 h5
      induction gss with
      | nil => simp
      | cons gs gss ih =>
        have h1 := ih fun g hg => this g (List.mem_cons_of_mem _ hg)
        have h2 := List.length_pos_iff.2 (this gs List.mem_cons_self)
        simp only [List.flatten_cons, List.length_append, List.length_cons]
        omega

end Verif
