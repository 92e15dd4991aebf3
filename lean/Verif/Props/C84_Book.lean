import Verif.Lemmas.BookPages
import Verif.Lemmas.Document
/-! C84: a document built from sections can be read in its file. -/
namespace Verif
open Spec

/-- the content boxes of a document: its sections, and the running sections of its pages -/
def bookOps (B : Book) (l : List BookSec) (plans : List BookPage) : List AddOp :=
  l.map (fun d => .content d.box) ++ plans.flatMap fun p => p.plan.boxes.map fun b => .content (B.shows b.name p.plan.number)

/-- what the pieces of a running section show: for each paragraph and image in it the beginning of what it holds, and all of it when the running section was finished,
in order -/
def RunningRead (ids : Str → Nat) (dicts : List (List (Bytes × PObj))) (b : DocBox) (fin : Bool) (rs : List Painted) : Prop :=
  ∃ u : List (Nat × Seen), u.map Prod.snd = rs.flatMap (pieceSeen dicts) ∧
    (∀ k, (u.filter (·.1 = k)).map Prod.snd <+: boxHeld (leafSeen ids) (imageSeen ids b.images) b k ∧
      (fin = true → (u.filter (·.1 = k)).map Prod.snd = boxHeld (leafSeen ids) (imageSeen ids b.images) b k)) ∧ KeepsOrder (boxBefore b) u

/-- what a reader finds in a file: `dicts` and `pages` are its pages and what they show; `shown` are the pieces of each page of each section -/
structure BookRead (R : PdfFile) (flate : Bytes → Bytes) (num : Rat → Obj) (B : Book) (l : List BookSec) (plans : List BookPage) (ids : Str → Nat)
    (dicts : List (List (Bytes × PObj))) (pages : List (List Event)) (shown : List (List PageGroup)) : Prop where
  read : ∃ N ns, (∀ depth, N ≤ depth → R.pages depth = some ns) ∧ List.Forall₂ (fun n D => R.dict n = some D) ns dicts ∧
    List.Forall₂ (fun D evs => ∀ inflate, (∀ x, inflate (flate x) = x) → R.pageEvents inflate D = some evs) dicts pages
  /-- the pages have the sizes planned -/
  sizes : List.Forall₂ (fun D (p : BookPage) => ∃ w h, meaning (num p.plan.sheet.w) = some w ∧ meaning (num p.plan.sheet.h) = some h ∧
    Spec.lookup b!"MediaBox" D = some (.arr [.int 0, .int 0, w, h])) dicts plans
  /-- every page shows exactly its pieces: those of its running sections, and then those of its section -/
  pieces : List.Forall₂ (fun evs (g : PageGroup) => evs = g.1.flatten.flatMap Painted.evs ++ g.2.flatMap Painted.evs) pages shown.flatten
  place : ∀ i (g : PageGroup), shown.flatten[i]? = some g → ∀ r ∈ g.1.flatten ++ g.2, r.page = i
  /-- every section has pages of its own, which together show what it holds -/
  sections : List.Forall₂ (fun (d : BookSec) gs => gs ≠ [] ∧ CallRead ids dicts (.content d.box) (gs.flatMap Prod.snd)) l shown
  ends : plans.map BookPage.last = shown.flatMap fun gs => List.replicate (gs.length - 1) false ++ [true]
  /-- every page shows its running sections, with its number -/
  running : List.Forall₂ (fun (p : BookPage) (g : PageGroup) => p.plan.boxes.length = p.fits.length ∧
    List.Forall₂ (fun q rs => RunningRead ids dicts (B.shows q.1.name p.plan.number) q.2 rs) (p.plan.boxes.zip p.fits) g.1) plans shown.flatten
  images : ∀ d ∈ l, ∀ im, (AddOp.content d.box).HasImage im → ImageRead R (ids im.name) im
  /-- every image that is seen is one of those given -/
  given : ∀ g ∈ shown.flatten, ∀ r ∈ g.1.flatten ++ g.2, ∀ x, Seen.image x ∈ pieceSeen dicts r →
    ∃ a ∈ bookOps B l plans, ∃ im, a.HasImage im ∧ x = some (ids im.name) ∧ ImageRead R (ids im.name) im

section
variable {T : TextEnv} {refOf : Str → Str → Str} {fuel : Nat} {B : Book} {s : PdfD} {dicts : List (List (Bytes × PObj))} {H : Rat}

theorem running_read (hf : PagesFound s dicts) {box : DocBox} {b : RunBox} {w : Rat} (hw : b.width = some w) (hb : BoxFit (docNest T refOf box.depth) box.els [w])
    {fin : Bool} {rs : List Painted} (h : RunDrawn T fuel H s box b fin rs) : RunningRead (fun n => (dget n s.images).getD 0) dicts box fin rs := by
  obtain ⟨rect, o, h1, h2, h3, h4, -⟩ := h
  obtain ⟨ps, s', e1, e2, e3⟩ := content_runs [rect] [o] _ rfl (⟨h2, by simp, trivial⟩ : FlowChain (contentFlow T fuel box) _ [rect] [o])
  obtain ⟨u, u1, u2, u3⟩ := tags_seen (fun n => (dget n s.images).getD 0) box.images (ps.map CPart.join)
  have hW : ∀ r ∈ [rect], r.2.2.1 ∈ [w] := by
    intro r hr
    simp only [List.mem_singleton] at hr
    subst hr
    have h1 := h1.1
    rw [hw] at h1
    simpa using h1
  have key := fun k => box_shows (docNest_good fuel box.depth) hb hW e1 k
  have hval : ∀ k, (boxHeld leafHeld imageHeld box k).flatMap (heldSeen (fun n => (dget n s.images).getD 0) box.images) =
      boxHeld (leafSeen fun n => (dget n s.images).getD 0) (imageSeen (fun n => (dget n s.images).getD 0) box.images) box k := by
    intro k
    rw [← boxHeld_flatMap]
    congr 1
    funext l
    exact leafHeld_seen _ _ l
  refine ⟨u, ?_, fun k => ⟨?_, fun hfin => ?_⟩, u3 _ (box_order doc_good hb hW e1)⟩
  · rw [u1, pieces_seen hf h3, ← e2]
    have := marks_atoms [o]
    simp only [List.flatMap_cons, List.flatMap_nil, List.append_nil] at this ⊢
    rw [this]
  · obtain ⟨t, ht⟩ := (key k).1
    rw [box_total] at ht
    rw [u2, ← hval, ← ht, List.flatMap_append]
    exact List.prefix_append _ _
  · rw [u2, ← hval, (key k).2 (by rw [e3 o rfl, ← h4]; exact hfin), box_total]

theorem runs_read (hf : PagesFound s dicts) {shows : Str → DocBox} {l : List RunBox} {fs : List Bool} {rss : List (List Painted)} (h : RunsDrawn T fuel H s shows l fs rss)
    (hfit : ∀ b ∈ l, RunFits T refOf shows b) : l.length = fs.length ∧
      List.Forall₂ (fun q rs => RunningRead (fun n => (dget n s.images).getD 0) dicts (shows q.1.name) q.2 rs) (l.zip fs) rss := by
  induction h with
  | nil => exact ⟨rfl, .nil⟩
  | cons h _ ih =>
    obtain ⟨w, e, hb⟩ := hfit _ (List.mem_cons_self)
    obtain ⟨a1, a2⟩ := ih fun b hb => hfit b (List.mem_cons_of_mem _ hb)
    exact ⟨by simp [a1], .cons (running_read hf e hb h) a2⟩

theorem plans_read (hf : PagesFound s dicts) {plans : List BookPage} {gs : List PageGroup} (h : PlansDrawn T fuel B s plans gs)
    (hfit : ∀ p ∈ plans, ∀ b ∈ p.plan.boxes, RunFits T refOf (fun n => B.shows n p.plan.number) b) :
    List.Forall₂ (fun (p : BookPage) (g : PageGroup) => p.plan.boxes.length = p.fits.length ∧
      List.Forall₂ (fun q rs => RunningRead (fun n => (dget n s.images).getD 0) dicts (B.shows q.1.name p.plan.number) q.2 rs) (p.plan.boxes.zip p.fits) g.1) plans gs := by
  induction h with
  | nil => exact .nil
  | cons h _ ih => exact .cons (runs_read hf h (hfit _ List.mem_cons_self)) (ih fun p hp => hfit p (List.mem_cons_of_mem _ hp))

/-- every piece is one of a part -/
theorem runs_pieces {shows : Str → DocBox} {l : List RunBox} {fs : List Bool} {rss : List (List Painted)} (h : RunsDrawn T fuel H s shows l fs rss) :
    ∀ r ∈ rss.flatten, ∃ a, PieceShows T s a r := by
  induction h with
  | nil => intro r hr; simp at hr
  | cons h _ ih =>
    obtain ⟨rect, o, -, -, h3, -⟩ := h
    intro r hr
    rw [List.flatten_cons, List.mem_append] at hr
    rcases hr with hr | hr
    · obtain ⟨n, hn, rfl⟩ := List.getElem_of_mem hr
      have hlen := h3.length_eq
      exact ⟨_, (List.forall₂_iff_get.1 h3).2 n (by omega) hn⟩
    · exact ih r hr

theorem plans_pieces {plans : List BookPage} {gs : List PageGroup} (h : PlansDrawn T fuel B s plans gs) :
    ∀ g ∈ gs, ∀ r ∈ g.1.flatten, ∃ a, PieceShows T s a r := by
  induction h with
  | nil => intro g hg; cases hg
  | cons h _ ih =>
    intro g hg
    rcases List.mem_cons.1 hg with rfl | hg
    · exact runs_pieces h
    · exact ih g hg

theorem forall₂_right {α β : Type} {P : α → β → Prop} {l : List α} {l' : List β} (h : List.Forall₂ P l l') : ∀ b ∈ l', ∃ a ∈ l, P a b := by
  induction h with
  | nil => intro b hb; cases hb
  | cons h _ ih =>
    intro b hb
    rcases List.mem_cons.1 hb with rfl | hb
    · exact ⟨_, List.mem_cons_self, h⟩
    · obtain ⟨a, ha, h'⟩ := ih b hb
      exact ⟨a, List.mem_cons_of_mem _ ha, h'⟩

/-- an image that is seen is that of a part -/
theorem piece_given (hf : PagesFound s dicts) {a : Option DocPart} {r : Painted} (h : PieceShows T s a r) {x : Option Nat} (hx : Seen.image x ∈ pieceSeen dicts r) :
    ∃ n id, dget n s.images = some id ∧ x = some id := by
  rw [piece_seen hf h] at hx
  cases a with
  | none => simp at hx
  | some a =>
    cases a with
    | par x y w ht text graphics used ids cfg lines => simp [DocPart.leaf, leafPartAtoms, atomSeen] at hx
    | image im x y w ht =>
      obtain ⟨-, gs, n, id, pg, -, -, h3, -⟩ := h
      simp only [Option.toList_some, List.flatMap_cons, List.flatMap_nil, DocPart.leaf, leafPartAtoms, List.append_nil, atomSeen, List.mem_singleton, Seen.image.injEq, h3,
        Option.getD_some] at hx
      exact ⟨_, id, h3, hx⟩

end

theorem book_read {E : PdfEnv} {T : TextEnv} (hT : T.Ok) {refOf : Str → Str → Str} {B : Book} {fuel : Nat} {version : Str} {setup : PageSetup} {offset : Int}
    {roman : Bool} {l : List BookSec} {p : FProc} {s : BookSt} (h : madeBook E T fuel B version setup offset roman l p = .ok s) {Ws : List Rat}
    (hW : ∀ pl ∈ s.plans, pl.plan.sheet.w - pl.plan.sheet.right - pl.plan.sheet.left ∈ Ws) (hl : ∀ d ∈ l, BoxFit (docNest T refOf d.box.depth) d.box.els Ws)
    (hr : ∀ pl ∈ s.plans, ∀ b ∈ pl.plan.boxes, RunFits T refOf (fun n => B.shows n pl.plan.number) b) (him : ImagesOk (bookOps B l s.plans))
    {level : Int} {b : Base} (hb : s.pdf.doc.withTrees E.num level = .ok b) (hread : ∀ o ∈ b.content, readable o.value = true)
    (flate : Bytes → Bytes) (u1 u2 : Bytes) (hok : (b.output flate u1 u2).err = none) (hsmall : (b.output flate u1 u2).written.length < 10 ^ 10)
    (hu1 : 60 ∉ u1 ∧ 62 ∉ u1) (hu2 : 60 ∉ u2 ∧ 62 ∉ u2) :
    ∃ R ids dicts pages shown, openFile (b.output flate u1 u2).written = some R ∧ BookRead R flate E.num B l s.plans ids dicts pages shown ∧
      PlansDrawn T fuel B s.pdf s.plans shown.flatten ∧ List.Forall₂ (fun p (g : PageGroup) => ∃ d ∈ l, BodyOn T fuel Ws s.pdf d.box p.plan.sheet g.2) s.plans shown.flatten ∧
      BookDrawn E (fun im => ∃ a ∈ bookOps B l s.plans, a.HasImage im) s.pdf shown.flatten ∧ List.Forall₂ (fun (d : BookSec) gs => SecDrawn T fuel Ws s.pdf d.box gs) l shown := by
  unfold madeBook at h
  split at h
  · cases h
  · rename_i r hn
    obtain ⟨p0, s0⟩ := r
    have hops1 : ∀ d ∈ l, AddOp.content d.box ∈ bookOps B l s.plans := fun d hd => List.mem_append.2 (Or.inl (List.mem_map.2 ⟨d, hd, rfl⟩))
    have hops2 : ∀ pl ∈ s.plans, ∀ b ∈ pl.plan.boxes, AddOp.content (B.shows b.name pl.plan.number) ∈ bookOps B l s.plans := fun pl hpl b hb =>
      List.mem_append.2 (Or.inr (List.mem_flatMap.2 ⟨pl, hpl, List.mem_map.2 ⟨b, hb, rfl⟩⟩))
    have hdn : DrawnDoc E (fun im => ∃ a ∈ bookOps B l s.plans, a.HasImage im) anyW ⟨s0, []⟩ [] := drawn_new hn
    obtain ⟨gss, pls, h1, h1', h2, ⟨h3, h3'⟩, h4, -, h6⟩ := book_run (E := E) (L := fun im => ∃ a ∈ bookOps B l s.plans, a.HasImage im) hT l (groups := []) hl
      (fun d hd im hi => ⟨_, hops1 d hd, hi⟩) ⟨hdn, by rw [new_pages hn]; rfl, by intro i g hi; simp at hi⟩ h
      (fun pl hpl => ⟨hW pl hpl, hr pl hpl, fun b hb im hi => ⟨_, hops2 pl hpl b hb, hi⟩⟩)
    rw [List.nil_append] at h2 h4
    subst h2
    have hz : s.pdf.sizes = s.plans.map fun p => (p.plan.sheet.w, p.plan.sheet.h) := by
      rw [h6]
      simp [PdfD.sizes, new_pages hn]
    have hplen : s.plans.length = s.pdf.doc.pages.length := by
      have := congrArg List.length hz
      simpa [PdfD.sizes] using this.symm
    obtain ⟨R, N, r1, r2, r3, -⟩ := document_read (E := E) h4.drawn.out hb hread flate u1 u2 hok hsmall hu1 hu2
    obtain ⟨dicts, hd⟩ := forall₂_choose (P := fun pg D => R.dict pg.objId = some D ∧
        (∀ inflate, (∀ x, inflate (flate x) = x) → R.contents inflate D = some (pg.stream.map Prod.snd).flatten) ∧
        (∀ n, resource b!"XObject" (bytesOf (imName n)) D = dget (imName n) pg.xres) ∧
        ∃ w h, meaning (E.num pg.width) = some w ∧ meaning (E.num pg.height) = some h ∧ Spec.lookup b!"MediaBox" D = some (.arr [.int 0, .int 0, w, h])) (l := s.pdf.doc.pages) (by
      intro pg hpg
      obtain ⟨D, d1, d2, d3, d4, -⟩ := (r3 pg hpg).shown
      exact ⟨D, d1, d3, fun n => (d4 (imName n) (imName_small n)).2, d2⟩)
    have hlen := hd.length_eq
    have hget := (List.forall₂_iff_get.1 hd).2
    have hf : PagesFound s.pdf dicts := by
      intro i pg hi
      obtain ⟨hlt, rfl⟩ := List.getElem?_eq_some_iff.1 hi
      exact ⟨dicts[i], List.getElem?_eq_getElem (by omega), (hget i hlt (by omega)).2.2.1⟩
    have hsecs : List.Forall₂ (fun (d : BookSec) gs => (gs ≠ [] ∧ CallRead (fun n => (dget n s.pdf.images).getD 0) dicts (.content d.box) (gs.flatMap Prod.snd)) ∧
        ∀ im, (AddOp.content d.box).HasImage im → (dget im.name s.pdf.images).isSome) l gss := by
      have := h1
      clear h1 h1' him h
      clear hops1 hops2 hdn h3 h3' h4
      induction this with
      | nil => exact .nil
      | cons h _ ih =>
        obtain ⟨c1, c2⟩ := call_read hf (show AddOp.Ok T refOf Ws (.content _) from hl _ List.mem_cons_self) h.2
        exact .cons ⟨⟨h.1, c1⟩, c2⟩ (ih fun a ha => hl a (List.mem_cons_of_mem _ ha))
    have himg : ∀ n id, dget n s.pdf.images = some id → ∃ a ∈ bookOps B l s.plans, ∃ im, a.HasImage im ∧ im.name = n ∧ ImageRead R id im := by
      intro n id hid
      obtain ⟨im, ⟨a, ha, hi⟩, i2, i3⟩ := h4.drawn.imgs _ _ hid
      obtain ⟨o1, o2, o3⟩ := him.own _ ha im hi
      obtain ⟨D, d1, d2, d3⟩ := object_read (E := E) h4.drawn.out hb hread flate u1 u2 hok hsmall hu1 hu2 r1 i3 o1 o2 o3
      exact ⟨a, ha, im, hi, i2, D, d1, d2.look, d3⟩
    have hgl : gss.flatten.length = s.pdf.doc.pages.length := h4.length
    refine ⟨R, fun n => (dget n s.pdf.images).getD 0, dicts, (List.range s.pdf.doc.pages.length).map (seenOn (gss.flatten.flatMap PageGroup.all)), gss, r1,
      ⟨⟨N, _, r2, ?_, ?_⟩, ?_, ?_, h4.pages, hsecs.imp fun _ _ h => h.1, h1', plans_read hf h3 hr, ?_, ?_⟩, h3, h3', h4, h1⟩
    · rw [List.forall₂_map_left_iff]
      exact hd.imp fun _ _ h => h.1
    · rw [List.forall₂_iff_get]
      refine ⟨by simp [hlen], ?_⟩
      intro i hi1 hi2 inflate hinf
      have hi : i < s.pdf.doc.pages.length := by omega
      obtain ⟨⟨-, str, ops, gs, e1, e2, -, e3⟩, -⟩ := h4.drawn.page i _ (List.getElem?_eq_getElem hi)
      have d3 := (hget i hi hi1).2.1
      simp only [List.get_eq_getElem, List.getElem_map, List.getElem_range] at d3 ⊢
      rw [PdfFile.pageEvents, d3 inflate hinf, Option.bind_some, e1, execStream, e2.ops]
      simp only [e3, Option.map_some]
    · rw [List.forall₂_iff_get]
      refine ⟨by omega, ?_⟩
      intro i hi1 hi2
      have hi : i < s.pdf.doc.pages.length := by omega
      have d3 := (hget i hi hi1).2.2.2
      have e : (s.pdf.sizes)[i]? = (s.plans.map fun p => (p.plan.sheet.w, p.plan.sheet.h))[i]? := by rw [hz]
      rw [PdfD.sizes, List.getElem?_map, List.getElem?_map, List.getElem?_eq_getElem hi, List.getElem?_eq_getElem hi2] at e
      simp only [Option.map_some, Option.some.injEq, Prod.mk.injEq] at e
      simp only [List.get_eq_getElem] at d3 ⊢
      rw [← e.1, ← e.2]
      exact d3
    · rw [List.forall₂_iff_get]
      refine ⟨by simp [hgl], ?_⟩
      intro i hi1 hi2
      simp only [List.get_eq_getElem, List.getElem_map, List.getElem_range]
      have := seenOn_group gss.flatten 0 (by simpa using h4.pages) i _ (List.getElem?_eq_getElem hi2)
      rw [Nat.zero_add] at this
      rw [this, PageGroup.all, List.flatMap_append]
    · intro d hd im hi
      obtain ⟨n, hn, rfl⟩ := List.getElem_of_mem hd
      have := ((List.forall₂_iff_get.1 hsecs).2 n hn (by have := hsecs.length_eq; omega)).2 im hi
      obtain ⟨id, hid⟩ := Option.isSome_iff_exists.1 this
      obtain ⟨a', ha', im', hi', i2, D, d1, d2, d3⟩ := himg _ _ hid
      have e := him.same _ ha' _ (hops1 _ hd) im' im hi' hi i2
      show ImageRead R ((dget im.name s.pdf.images).getD 0) im
      rw [hid, Option.getD_some]
      refine ⟨D, d1, ?_, ?_⟩
      · intro k hk
        rw [d2 k hk, e]
      · rw [← e]
        exact d3
    · intro g hg r hr x hx
      have hshow : ∃ a, PieceShows T s.pdf a r := by
        rcases List.mem_append.1 hr with hr | hr
        · exact plans_pieces h3 g hg r hr
        · obtain ⟨gs, hgs, hg⟩ := List.mem_flatten.1 hg
          obtain ⟨d, hd, -, rects, outs, -, -, -, k4⟩ := forall₂_right h1 gs hgs
          obtain ⟨a, -, ha⟩ := forall₂_right k4 r (List.mem_flatMap.2 ⟨g, hg, hr⟩)
          exact ⟨a, ha⟩
      obtain ⟨a, ha⟩ := hshow
      obtain ⟨n, id, hid, rfl⟩ := piece_given hf ha hx
      obtain ⟨a', ha', im, hi, rfl, hread'⟩ := himg _ _ hid
      refine ⟨a', ha', im, hi, ?_, ?_⟩
      · show _ = some ((dget im.name s.pdf.images).getD 0)
        rw [hid]
        rfl
      · show ImageRead R ((dget im.name s.pdf.images).getD 0) im
        rw [hid]
        exact hread'

/-- **C84.** Build a document from sections and running sections, content boxes of one column in the fonts of the standard and without lists and footnotes, with
tables and content boxes in each other. If every value in it can be written, its file opens in a reader, whose pages are those of the sections, one section after
the other, at least one each, with the sizes planned. A page shows exactly its running sections, in their order and with the number of the page, and then the section. The words and
images of a section on its pages are exactly those of the paragraphs and images in it, each with its own in order; those of a running section are so too if
it was finished, and otherwise the beginnings of these. The images shown have the objects given. Partial: see DESIGN.md. -/
theorem C84_book_partial {E : PdfEnv} {T : TextEnv} (hT : T.Ok) {refOf : Str → Str → Str} {B : Book} {fuel : Nat} {version : Str} {setup : PageSetup} {offset : Int}
    {roman : Bool} {l : List BookSec} {p : FProc} {s : BookSt} (h : madeBook E T fuel B version setup offset roman l p = .ok s) {Ws : List Rat}
    (hW : ∀ pl ∈ s.plans, pl.plan.sheet.w - pl.plan.sheet.right - pl.plan.sheet.left ∈ Ws) (hl : ∀ d ∈ l, BoxFit (docNest T refOf d.box.depth) d.box.els Ws)
    (hr : ∀ pl ∈ s.plans, ∀ b ∈ pl.plan.boxes, RunFits T refOf (fun n => B.shows n pl.plan.number) b) (him : ImagesOk (bookOps B l s.plans))
    {level : Int} {b : Base} (hb : s.pdf.doc.withTrees E.num level = .ok b) (hread : ∀ o ∈ b.content, readable o.value = true)
    (flate : Bytes → Bytes) (u1 u2 : Bytes) (hok : (b.output flate u1 u2).err = none) (hsmall : (b.output flate u1 u2).written.length < 10 ^ 10)
    (hu1 : 60 ∉ u1 ∧ 62 ∉ u1) (hu2 : 60 ∉ u2 ∧ 62 ∉ u2) :
    ∃ R ids dicts pages shown, openFile (b.output flate u1 u2).written = some R ∧ BookRead R flate E.num B l s.plans ids dicts pages shown := by
  obtain ⟨R, ids, dicts, pages, shown, h1, h2, -⟩ := book_read hT h hW hl hr him hb hread flate u1 u2 hok hsmall hu1 hu2
  exact ⟨R, ids, dicts, pages, shown, h1, h2⟩

/-! ### The pages are those of `Document` -/

/-- what `Document` is given: it learns from a list where sections end -/
def bookEnv (B : Book) : DocEnv (List Bool) where
  float := B.float
  newId _ := 0
  order := B.order
  draw _ p := .ok p
  add k p := match k with
    | [] => .error .indexError
    | f :: k => .ok (k, p, f)
  start k _ := k

def Book.defs (B : Book) : DocDefs := ⟨B.style, B.secs, B.perPage⟩

/-- a page of `Document` is one that was planned: its section, number, size and margins, and running sections, as far as their places are given -/
def SamePage (sec : Nat) (dp : DPage) (p : BookPage) : Prop :=
  dp.sec = sec ∧ dp.number = p.plan.number ∧ dp.page.sheet = p.plan.sheet ∧
    List.Forall₂ (fun (q : PlacedBox) (b : RunBox) => q.name = b.name ∧ (∀ x, b.x = some x → q.x = x) ∧ (∀ y, b.y = some y → q.y = p.plan.sheet.h - y) ∧
      (∀ w, b.width = some w → q.width = w) ∧ ∀ h, b.height = some h → q.height = h) dp.placed p.plan.boxes

theorem posSize_place (p : Page) (b : RunBox) : (p.posSize b).1.sheet = p.sheet ∧ (p.posSize b).2.name = b.name ∧ (∀ x, b.x = some x → (p.posSize b).2.x = x) ∧
    (∀ y, b.y = some y → (p.posSize b).2.y = p.sheet.h - y) ∧ (∀ w, b.width = some w → (p.posSize b).2.width = w) ∧ ∀ h, b.height = some h → (p.posSize b).2.height = h := by
  obtain ⟨name, width, height, x, y⟩ := b
  unfold Page.posSize
  cases x <;> cases y <;> simp [Page.sheet, Page.setY] <;> (constructor <;> (intro _ h; rw [h]; rfl))

theorem runAll_places : ∀ (l : List RunBox) (p : Page), ∃ bs q, runAll (fun _ p => .ok p) l p = .ok (bs, q) ∧ q.sheet = p.sheet ∧
    List.Forall₂ (fun (q : PlacedBox) (b : RunBox) => q.name = b.name ∧ (∀ x, b.x = some x → q.x = x) ∧ (∀ y, b.y = some y → q.y = p.sheet.h - y) ∧
      (∀ w, b.width = some w → q.width = w) ∧ ∀ h, b.height = some h → q.height = h) bs l := by
  intro l
  induction l with
  | nil => intro p; exact ⟨[], p, rfl, rfl, .nil⟩
  | cons b l ih =>
    intro p
    obtain ⟨e1, e2⟩ := posSize_place p b
    obtain ⟨bs, q, h1, h2, h3⟩ := ih (p.posSize b).1
    rw [e1] at h2 h3
    exact ⟨(p.posSize b).2 :: bs, q, by simp only [runAll, h1], h2, .cons e2 h3⟩

theorem sheetOf_ok {size : Rat × Rat} {m : List (Str × Rat)} {k : Sheet} (h : sheetOf size m = .ok k) : needSides m = .ok () ∧ k.w = size.1 ∧ k.h = size.2 ∧
    dget c!"top" m = some k.top ∧ dget c!"bottom" m = some k.bottom ∧ dget c!"left" m = some k.left ∧ dget c!"right" m = some k.right := by
  unfold sheetOf side at h
  unfold needSides side
  cases h1 : dget c!"left" m with
  | none => rw [h1] at h; cases h
  | some l =>
    cases h2 : dget c!"right" m with
    | none => rw [h1, h2] at h; cases h
    | some r =>
      cases h3 : dget c!"top" m with
      | none => rw [h1, h2, h3] at h; cases h
      | some t =>
        cases h4 : dget c!"bottom" m with
        | none => rw [h1, h2, h3, h4] at h; cases h
        | some b =>
          rw [h1, h2, h3, h4] at h
          cases h
          exact ⟨rfl, rfl, rfl, rfl, rfl, rfl, rfl⟩

/-- a planned page is one of `Document` -/
theorem plan_page {B : Book} {style : SecStyle} {running : List Str} {t : DocSt (List Bool)} {setup : PageSetup} {plan : PagePlan} {f : Bool} {k : List Bool} (sec : Nat)
    (h : pagePlan B style running t.setup t.roman t.offset t.pages.length = .ok (setup, plan)) (hk : t.rest = f :: k) (fits : List Bool) (last : Bool) :
    ∃ dp, docPage (bookEnv B) B.defs sec style running t = .ok ({ t with setup := setup, pages := t.pages ++ [dp], rest := k }, f) ∧ SamePage sec dp ⟨plan, fits, last⟩ := by
  unfold pagePlan at h
  simp only at h
  split at h
  · cases h
  rename_i setup' h1
  split at h
  · cases h
  rename_i sheet h2
  split at h
  · cases h
  rename_i boxes h3
  split at h
  · cases h
  rename_i p0 h4
  split at h
  · cases h
  rename_i number h5
  cases h
  obtain ⟨a1, a2, a3, a4, a5, a6, a7⟩ := sheetOf_ok h2
  obtain ⟨b1, b2, ⟨b3, b4, b5, b6⟩, -⟩ := ofMargins_ok a1 h4
  have hsheet : p0.sheet = sheet := by
    obtain ⟨w, ht, top, bottom, left, right⟩ := sheet
    simp only at a2 a3 a4 a5 a6 a7
    rw [a4] at b3
    rw [a5] at b4
    rw [a6] at b5
    rw [a7] at b6
    cases b3; cases b4; cases b5; cases b6
    rw [Page.sheet, b1, b2, a2, a3]
  obtain ⟨bs, q, c1, c2, c3⟩ := runAll_places boxes p0
  rw [hsheet] at c2 c3
  refine ⟨⟨q.goToBeginning, number, bs, sec⟩, ?_, rfl, rfl, c2, c3⟩
  have e1 : (bookEnv B).float = B.float := rfl
  have e2 : (bookEnv B).newId t.rest = 0 := rfl
  have e3 : (bookEnv B).order = B.order := rfl
  have e4 : (bookEnv B).draw = fun _ p => .ok p := rfl
  have e5 : (bookEnv B).add t.rest q.goToBeginning = .ok (k, q.goToBeginning, f) := by rw [hk]; rfl
  have e6 : B.defs.perPage = B.perPage := rfl
  have e7 : B.defs.secs = B.secs := rfl
  unfold docPage
  simp only [e1, e2, e3, e4, e6, e7, h1, a1, h3, h4, h5, c1, e5]

/-- the same settings and the same number of pages -/
structure SameState (s : BookSt) (t : DocSt (List Bool)) : Prop where
  setup : t.setup = s.setup
  offset : t.offset = s.offset
  roman : t.roman = s.roman
  length : t.pages.length = s.pdf.doc.pages.length

section
variable {E : PdfEnv} {T : TextEnv} {refOf : Str → Str → Str} {L : PImg → Prop} {fuel : Nat} {B : Book} {Ws : List Rat} {style : SecStyle} {running : List Str} {b : DocBox}

theorem bookPage_state {s s' : BookSt} {c : CContent (DocNest b.depth) (TagPart DocPart) LineLook (PDFColor Rat)}
    {o : FlowOut (CContent (DocNest b.depth) (TagPart DocPart) LineLook (PDFColor Rat))} (h : bookPage E T fuel B style running b s c = .ok (s', o)) :
    ∃ plan fits, pagePlan B style running s.setup s.roman s.offset s.pdf.doc.pages.length = .ok (s'.setup, plan) ∧ s'.offset = s.offset ∧ s'.roman = s.roman ∧
      s'.plans = s.plans ++ [⟨plan, fits, o.finished⟩] := by
  unfold bookPage at h
  split at h
  · cases h
  · rename_i setup plan hplan
    split at h
    · cases h
    · rename_i p1 d1 fits h1
      split at h
      · cases h
      · cases h
        exact ⟨plan, fits, hplan, rfl, rfl, rfl⟩

theorem doc_pages (hT : T.Ok) (hb : BoxFit (docNest T refOf b.depth) b.els Ws) (hL : ∀ im, (AddOp.content b).HasImage im → L im) (sec : Nat) : ∀ (n : Nat)
    {s s' : BookSt} {groups : List PageGroup} {c : CContent (DocNest b.depth) (TagPart DocPart) LineLook (PDFColor Rat)} {t : DocSt (List Bool)} {pls : List BookPage}
    {k : List Bool}, BookDrawn E L s.pdf groups → BoxState T fuel b Ws c → bookPages E T fuel B style running b n s c = .ok s' →
    (∀ pl ∈ s'.plans, PlanFits T refOf L B Ws pl.plan) → SameState s t → s'.plans = s.plans ++ pls → t.rest = pls.map BookPage.last ++ k →
    ∃ dps t', docPages (bookEnv B) B.defs sec style running n t = .ok t' ∧ t'.pages = t.pages ++ dps ∧ List.Forall₂ (SamePage sec) dps pls ∧ t'.rest = k ∧ SameState s' t' := by
  intro n
  induction n with
  | zero => intro s s' groups c t pls k _ _ h; cases h
  | succ n ih =>
    intro s s' groups c t pls k hs hc h hpl hst hpls hk
    rw [bookPages] at h
    split at h
    · cases h
    · rename_i s1 o h1
      obtain ⟨plan, fits, e1, e2⟩ := book_page hT hb hL hs hc h1
      obtain ⟨plan', fits', f1, f2, f3, f4⟩ := bookPage_state h1
      obtain ⟨rfl, rfl⟩ : plan' = plan ∧ fits' = fits := by
        rw [e1] at f4
        have := List.append_cancel_left f4
        simp only [List.cons.injEq, and_true] at this
        cases this
        exact ⟨rfl, rfl⟩
      obtain ⟨r, hr⟩ : s1.plans <+: s'.plans := by
        split at h
        · cases h; exact List.prefix_rfl
        · exact bookPages_plans n h
      have hpl' := hpl ⟨plan', fits', o.finished⟩ (by rw [← hr, e1]; simp)
      obtain ⟨g, rect, a1, a2, a3, a4, -, a5, a6, a7, a8⟩ := e2 hpl'
      obtain ⟨pls', rfl⟩ : ∃ pls', pls = ⟨plan', fits', o.finished⟩ :: pls' := by
        rw [← hr, e1, List.append_assoc] at hpls
        have := List.append_cancel_left hpls
        exact ⟨_, this.symm⟩
      rw [← hst.setup, ← hst.roman, ← hst.offset, ← hst.length] at f1
      obtain ⟨dp, d1, d2⟩ := plan_page sec f1 (by rw [hk]; rfl) fits' o.finished
      have hst1 : SameState s1 { t with setup := s1.setup, pages := t.pages ++ [dp], rest := pls'.map BookPage.last ++ k } := by
        refine ⟨rfl, ?_, ?_, ?_⟩
        · rw [f2]; exact hst.offset
        · rw [f3]; exact hst.roman
        · have := congrArg List.length a8
          simp only [PdfD.sizes, List.length_map, List.length_append, List.length_cons, List.length_nil] at this ⊢
          rw [this, hst.length]
      split at h
      · rename_i hfin
        cases h
        obtain rfl : pls' = [] := by
          rw [e1] at hpls
          have := List.append_cancel_left hpls
          simpa using this.symm
        refine ⟨[dp], _, ?_, rfl, .cons d2 .nil, rfl, hst1⟩
        rw [docPages, d1]
        simp only [hfin]
        rfl
      · rename_i hfin
        have hfin : o.finished = false := by simpa using hfin
        obtain ⟨dps, t', k1, k2, k3, k4, k5⟩ := ih a6 (a3 hfin) h hpl hst1 (pls := pls') (k := k) (by rw [hpls, e1]; simp) rfl
        refine ⟨dp :: dps, t', ?_, by rw [k2]; simp, .cons d2 k3, k4, k5⟩
        rw [docPages, d1]
        simp only [hfin]
        exact k1

/-- the last page of a section is marked, no other -/
theorem marks_count {pls : List BookPage} {m : Nat} (h : pls.map BookPage.last = List.replicate m false ++ [true]) :
    pls.countP BookPage.last = 1 ∧ ∀ i < pls.length, (pls.take i).countP BookPage.last = 0 := by
  have hc : ∀ l : List BookPage, l.countP BookPage.last = (l.map BookPage.last).count true := by
    intro l
    rw [List.count, List.countP_map]
    congr 1
    funext p
    simp
  have hlen : pls.length = m + 1 := by
    have := congrArg List.length h
    simpa using this
  constructor
  · rw [hc, h]
    simp [List.count_replicate]
  · intro i hi
    rw [hc, List.map_take, h, List.take_append_of_le_length (by simp; omega), List.take_replicate]
    simp [List.count_replicate]

theorem doc_run (hT : T.Ok) : ∀ (l : List BookSec) (sec : Nat) {s s' : BookSt} {groups : List PageGroup} {t : DocSt (List Bool)} {pls : List BookPage}
    {k : List Bool}, (∀ d ∈ l, BoxFit (docNest T refOf d.box.depth) d.box.els Ws) → (∀ d ∈ l, ∀ im, (AddOp.content d.box).HasImage im → L im) →
    BookDrawn E L s.pdf groups → bookRun E T fuel B l s = .ok s' → (∀ pl ∈ s'.plans, PlanFits T refOf L B Ws pl.plan) → SameState s t →
    s'.plans = s.plans ++ pls → t.rest = pls.map BookPage.last ++ k →
    ∃ dps t', docRun (bookEnv B) B.defs fuel sec (l.map fun d => ⟨d.style, d.running⟩) t = .ok t' ∧ t'.pages = t.pages ++ dps ∧ dps.length = pls.length ∧
      ∀ (i : Nat) dp p, dps[i]? = some dp → pls[i]? = some p → SamePage (sec + (pls.take i).countP BookPage.last) dp p := by
  intro l
  induction l with
  | nil =>
    intro sec s s' groups t pls k _ _ _ h _ hst hpls hk
    cases h
    obtain rfl : pls = [] := by simpa using hpls
    exact ⟨[], t, rfl, by simp, rfl, by intro i dp p h; simp at h⟩
  | cons d l ih =>
    intro sec s s' groups t pls k hb hL hs h hpl hst hpls hk
    rw [bookRun] at h
    split at h
    · cases h
    · rename_i s1 h1
      obtain ⟨r, hr⟩ := bookRun_plans l h
      have hpl1 : ∀ pl ∈ s1.plans, PlanFits T refOf L B Ws pl.plan := fun pl h => hpl pl (by rw [← hr]; simp [h])
      obtain ⟨gs, pls1, a1, a1', a2, a3, a4, a5, a6⟩ := book_section hT (hb d (by simp)) (hL d (by simp)) hs h1 hpl1
      obtain rfl : pls = pls1 ++ r := by
        rw [← hr, a2, List.append_assoc] at hpls
        exact (List.append_cancel_left hpls).symm
      unfold bookSection at h1
      simp only at h1
      generalize e0 : (BookSt.mk s.pdf s.proc s.setup (if (B.style.update d.style).reset.getD false = true then -(s.pdf.doc.pages.length : Int) else
        (B.style.update d.style).offset.getD s.offset) ((B.style.update d.style).roman.getD s.roman) s.plans) = s0 at h1
      have hst0 : SameState s0 { t with offset := (if (B.style.update d.style).reset.getD false = true then -(t.pages.length : Int) else
          (B.style.update d.style).offset.getD t.offset), roman := (B.style.update d.style).roman.getD t.roman, rest := t.rest } := by
        rw [← e0]
        refine ⟨hst.setup, ?_, ?_, hst.length⟩
        · show (if _ then -(t.pages.length : Int) else _) = _
          rw [hst.length, hst.offset]
        · show Option.getD _ t.roman = _
          rw [hst.roman]
      have hs0 : BookDrawn E L s0.pdf groups := by rw [← e0]; exact hs
      have hpls0 : s1.plans = s0.plans ++ pls1 := by rw [← e0]; exact a2
      obtain ⟨dps, t1, b1, b2, b3, b4, b5⟩ := doc_pages hT (hb d (by simp)) (hL d (by simp)) sec fuel hs0 ⟨rfl, [], [], by simp, rfl⟩ h1 hpl1 hst0 hpls0
        (k := r.map BookPage.last ++ k) (by rw [show t.rest = _ from hk]; simp)
      obtain ⟨dps', t', c1, c2, c3, c4⟩ := ih (sec + 1) (fun d h => hb d (by simp [h])) (fun d h => hL d (by simp [h])) a4 h hpl b5 hr.symm b4
      obtain ⟨m1, m2⟩ := marks_count a1'
      have hlen := b3.length_eq
      refine ⟨dps ++ dps', t', ?_, ?_, by simp [hlen, c3], ?_⟩
      · rw [List.map_cons, docRun, docSection]
        simp only
        have b1' : docPages (bookEnv B) B.defs sec (B.defs.style.update d.style) d.running fuel { t with
            offset := (if (B.defs.style.update d.style).reset.getD false = true then -(t.pages.length : Int) else
              (B.defs.style.update d.style).offset.getD t.offset)
            roman := (B.defs.style.update d.style).roman.getD t.roman
            rest := (bookEnv B).start t.rest sec } = .ok t1 := b1
        rw [b1']
        exact c1
      · rw [c2, show t1.pages = t.pages ++ dps from b2]
        simp
      · intro i dp p hi hp
        by_cases hlt : i < pls1.length
        · rw [List.getElem?_append_left (by omega)] at hi hp
          rw [List.take_append_of_le_length (by omega), m2 i hlt]
          obtain ⟨hx, rfl⟩ := List.getElem?_eq_some_iff.1 hi
          obtain ⟨hy, rfl⟩ := List.getElem?_eq_some_iff.1 hp
          exact (List.forall₂_iff_get.1 b3).2 i hx hy
        · rw [List.getElem?_append_right (by omega)] at hi hp
          rw [List.take_append, List.take_of_length_le (by omega), List.countP_append, m1]
          rw [hlen] at hi
          have := c4 _ _ _ hi hp
          rwa [show sec + (1 + List.countP BookPage.last (List.take (i - pls1.length) r)) = sec + 1 + List.countP BookPage.last (List.take (i - pls1.length) r) by omega]

end

/-- The pages of C84 are those of `docRun`, with the sections, numbers, sizes, margins and running sections that C48, C49 and C53 speak of: page `i` is of the section
with as many before it as were finished on the pages before `i`. -/
theorem C84_pages_partial {E : PdfEnv} {T : TextEnv} (hT : T.Ok) {refOf : Str → Str → Str} {B : Book} {fuel : Nat} {version : Str} {setup : PageSetup} {offset : Int}
    {roman : Bool} {l : List BookSec} {p : FProc} {s : BookSt} (h : madeBook E T fuel B version setup offset roman l p = .ok s) {Ws : List Rat}
    (hW : ∀ pl ∈ s.plans, pl.plan.sheet.w - pl.plan.sheet.right - pl.plan.sheet.left ∈ Ws) (hl : ∀ d ∈ l, BoxFit (docNest T refOf d.box.depth) d.box.els Ws)
    (hr : ∀ pl ∈ s.plans, ∀ b ∈ pl.plan.boxes, RunFits T refOf (fun n => B.shows n pl.plan.number) b) :
    ∃ t, docRun (bookEnv B) B.defs fuel 0 (l.map fun d => ⟨d.style, d.running⟩) ⟨setup, offset, roman, [], s.plans.map BookPage.last⟩ = .ok t ∧
      t.pages.length = s.plans.length ∧
      ∀ (i : Nat) dp pl, t.pages[i]? = some dp → s.plans[i]? = some pl → SamePage ((s.plans.take i).countP BookPage.last) dp pl := by
  unfold madeBook at h
  split at h
  · cases h
  · rename_i r hn
    obtain ⟨p0, s0⟩ := r
    obtain ⟨dps, t, h1, h2, h3, h4⟩ := doc_run (E := E) (L := fun _ => True) hT l 0 (groups := []) (pls := s.plans) (k := [])
      (t := ⟨setup, offset, roman, [], s.plans.map BookPage.last⟩) hl (fun _ _ _ _ => trivial)
      ⟨drawn_new hn, by rw [new_pages hn]; rfl, by intro i g hi; simp at hi⟩ h (fun pl hpl => ⟨hW pl hpl, hr pl hpl, fun _ _ _ _ => trivial⟩)
      ⟨rfl, rfl, rfl, by simp [new_pages hn]⟩ (by simp) (by simp)
    simp only [List.nil_append] at h2
    subst h2
    exact ⟨t, h1, h3, fun i dp pl a b => by have := h4 i dp pl a b; rwa [Nat.zero_add] at this⟩

/-! ### An example -/

/-- a header with the number of the page, and a footer -/
def ex84Book : Book where
  float _ := none
  order l := l
  style := ⟨none, none, none, none, none, none⟩
  secs := [(c!"head", ⟨.num 90, .num 13, .num 5, .num 1⟩), (c!"foot", ⟨.num 50, .num 12, .num 5, .num 60⟩)]
  perPage := []
  shows n number := ⟨1, fun _ => ex80Wide, none, [.leaf (ex80Leaf 0 0 (.par (ex80Par (n ++ ' ' :: number)) [] true)) ex80CSt]⟩

def ex84Secs : List BookSec :=
  [⟨⟨none, none, none, none, some true, none⟩, [c!"head"], ex80Box⟩, ⟨⟨none, none, none, some 5, some false, none⟩, [c!"head", c!"foot"], ex80Box⟩]

def ex84Setup : PageSetup := ⟨100, 75, false, [(c!"top", 15), (c!"right", 5), (c!"bottom", 15), (c!"left", 5)]⟩

def ex84 : CRun BookSt := madeBook ex77E ex77T 40 ex84Book c!"1.5" ex84Setup 0 false ex84Secs ⟨[], []⟩

def ex84File : Option PdfFile :=
  match ex84 with
  | .error _ => none
  | .ok s => match s.pdf.doc.withTrees ex77E.num 1 with
    | .error _ => none
    | .ok b => openFile (b.output id b!"00" b!"11").written

theorem ex84_fit (t : Str) (w : Rat) :
    BoxFit (docNest ex77T sampleRef 1) [.leaf (ex80Leaf 0 0 (.par (ex80Par t) [] true)) ex80CSt] [w] := by
  refine ⟨?_, ?_, ?_, (List.nodup_singleton (0 : Nat) :)⟩
  · intro e he
    rw [List.mem_singleton] at he
    subst he
    norm_num [ElTidy, ex80CSt]
  · intro c st he
    simp only [List.mem_singleton, CEl.leaf.injEq] at he
    obtain ⟨rfl, rfl⟩ := he
    rfl
  · intro c st he W hm
    simp only [List.mem_singleton, CEl.leaf.injEq] at he
    obtain ⟨rfl, rfl⟩ := he
    exact ex80_par _ _ _ _

/-- the boxes of the example fit, wherever they are put -/
example : (∀ d ∈ ex84Secs, BoxFit (docNest ex77T sampleRef d.box.depth) d.box.els [90]) ∧
    ∀ number, ∀ b : RunBox, (∃ w, b.width = some w) → RunFits ex77T sampleRef (fun n => ex84Book.shows n number) b := by
  constructor
  · intro d hd
    have : BoxFit (docNest ex77T sampleRef 2) ex80Els [90] := ex80_els fun W h => by
      rw [List.mem_singleton.1 h]
      norm_num
    simp only [ex84Secs, List.mem_cons, List.not_mem_nil, or_false] at hd
    rcases hd with rfl | rfl <;> exact this
  · rintro number b ⟨w, hw⟩
    exact ⟨w, hw, ex84_fit _ w⟩

def ex84Plans : List BookPage := match ex84 with
  | .ok s => s.plans
  | .error _ => []

/-- the pages: their widths, numbers and running sections, ... -/
example : ex84Plans.map (fun p => (p.plan.sheet.w - p.plan.sheet.right - p.plan.sheet.left, p.plan.number, p.plan.boxes.map fun b => (b.name, b.width))) =
    [(90, c!"I", [(c!"head", some 90)]), (90, c!"II", [(c!"head", some 90)]), (90, c!"8", [(c!"head", some 90), (c!"foot", some 50)]),
      (90, c!"9", [(c!"head", some 90), (c!"foot", some 50)])] := by decide +kernel

/-- ... which of these were finished, and whether the section was -/
example : ex84Plans.map (fun p => (p.fits, p.last)) = [([true], false), ([true], true), ([true, false], false), ([true, false], true)] := by decide +kernel

/-- the file: the footer has no place for the number of the page -/
example : (ex84File.bind fun R => (R.pages 3).map fun ids => ids.map fun n => (R.dict n).bind fun D => (R.pageEvents id D).map fun e =>
      (eventWords e, (eventImages e).map fun n => resource b!"XObject" n D)) =
    some [some ([c!"head", c!"I", c!"one", c!"two"], [some 5]), some ([c!"head", c!"II", c!"three", c!"four", c!"five"], [some 8]),
      some ([c!"head", c!"8", c!"foot", c!"one", c!"two"], [some 5]), some ([c!"head", c!"9", c!"foot", c!"three", c!"four", c!"five"], [some 8])] := by decide +kernel

end Verif
