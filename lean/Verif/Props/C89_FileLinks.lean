import Verif.Lemmas.FileLinks
import Verif.Props.C88_InPage
/-!
# C89: the links, names and outline in the file of a document are where their text is shown -/
namespace Verif
open Spec

section
variable {T : TextEnv} {refOf : Str → Str → Str} {fuel : Nat} {ε : Rat}

/-! ### The pieces of a document -/

theorem flow_marked (hε : T.fmt.Signed ε) {s : PdfD} {b : DocBox} {Ws : List Rat} (hb : BoxFit (plainNest T refOf b.depth) b.els Ws)
    {c : CContent (DocNest b.depth) (TagPart DocPart) LineLook (PDFColor Rat)} (hc : BoxState T fuel b Ws c) {x y w h : Rat} (hw : w ∈ Ws)
    {o : FlowOut (CContent (DocNest b.depth) (TagPart DocPart) LineLook (PDFColor Rat))} (ho : contentFlow T fuel b c x y w h = .ok o) {rs : List Painted}
    (hrs : List.Forall₂ (PieceShows T s) o.marks rs) : ∀ r ∈ rs, ∃ marks, TextMarked T.fmt T.metrics ε r marks ∧ MarksNoted ε r marks := by
  intro r hr
  obtain ⟨a, ha, hra⟩ := forall₂_right hrs r hr
  refine piece_marked hε hra fun p hp => ?_
  subst hp
  exact content_plain hb hc hw ho p (by simpa [FlowOut.marks] using ha)

/-! ### Words -/

/-- the words of an atom -/
def atomWords : LAtom → List (List Piece)
  | .word w => [w]
  | .image _ => []

def heldWords : CAtom LAtom → List (List Piece)
  | .text a => atomWords a
  | .image _ => []

theorem leafHeld_words (l : DocLeaf) : (leafHeld l).flatMap heldWords = leafWords l := by
  rw [leafHeld, List.flatMap_map]
  cases l with
  | par a rects correct =>
    simp only [leafOf, leafAtoms, leafWords]
    induction wordsOf (a.cfg.content.flatMap itemToks) with
    | nil => rfl
    | cons w l ih => rw [List.map_cons, List.flatMap_cons, ih]; rfl
  | image im b => rfl

theorem boxHeld_words (b : DocBox) (k : Nat) : (boxHeld leafHeld imageHeld b k).flatMap heldWords = boxHeld leafWords (fun _ => []) b k := by
  rw [← boxHeld_flatMap]
  congr 1
  funext l
  exact leafHeld_words l

theorem tags_words (images : Nat → PImg) (ps : List (TagPart DocPart)) :
    ∃ u : List (Nat × List Piece), u.map Prod.snd = ((ps.map (tagDoc images)).flatMap fun p => leafPartAtoms p.leaf).flatMap atomWords ∧
      (∀ k, (u.filter (·.1 = k)).map Prod.snd = (ps.flatMap (natoms (fun p => leafPartAtoms p.leaf) k)).flatMap heldWords) ∧
      ∀ before, PartsOrder (fun p => leafPartAtoms p.leaf) before ps → KeepsOrder before u := by
  refine ⟨ps.flatMap fun p => ((leafPartAtoms (tagDoc images p).leaf).flatMap atomWords).map fun a => (tagOf p, a), ?_, ?_, fun before h => keeps_order h (part_shows _)⟩
  · induction ps with
    | nil => rfl
    | cons p ps ih => simp [ih, Function.comp_def]
  · intro k
    induction ps with
    | nil => rfl
    | cons p ps ih =>
      rw [List.flatMap_cons, List.filter_append, List.map_append, ih, List.flatMap_cons, List.flatMap_append]
      congr 1
      cases p with
      | leaf p =>
        obtain ⟨t, p⟩ := p
        by_cases ht : t = k
        · simp [tagOf, tagDoc, natoms, ht, List.filter_map, Function.comp_def, List.flatMap_map, heldWords]
        · simp [tagOf, natoms, ht, List.filter_map, Function.comp_def]
      | image n x y w h =>
        by_cases ht : n = k
        · simp [tagOf, tagDoc, natoms, ht, List.filter_map, DocPart.leaf, leafPartAtoms, heldWords, atomWords]
        · simp [tagOf, natoms, ht, List.filter_map, Function.comp_def]

theorem piece_words {s : PdfD} {l : List (Option DocPart)} {rs : List Painted} (h : List.Forall₂ (PieceShows T s) l rs) :
    rs.flatMap pieceWords = (l.flatMap fun a => a.toList.flatMap fun p => leafPartAtoms p.leaf).flatMap atomWords := by
  induction h with
  | nil => rfl
  | @cons a r _ _ h _ ih =>
    rw [List.flatMap_cons, List.flatMap_cons, List.flatMap_append, ih]
    congr 1
    cases a with
    | none => simp [pieceWords, h.1]
    | some p =>
      cases p with
      | par x y w ht text graphics used ids cfg lines =>
        simp only [pieceWords, h.1, Option.toList_some, List.flatMap_cons, List.flatMap_nil, List.append_nil, DocPart.leaf, leafPartAtoms, List.flatMap_map]
        induction wordsOf (lines.flatMap lineToks) with
        | nil => rfl
        | cons w l ih => rw [List.flatMap_cons, ← ih]; rfl
      | image im x y w ht => simp [pieceWords, h.1, DocPart.leaf, leafPartAtoms, atomWords]

/-- the words of the pieces of a box, paragraph by paragraph: the beginning of its words, or all of them, in order -/
def Spec.BoxWords (b : DocBox) (fin : Bool) (rs : List Painted) : Prop :=
  ∃ u : List (Nat × List Piece), u.map Prod.snd = rs.flatMap pieceWords ∧
    (∀ k, (u.filter (·.1 = k)).map Prod.snd <+: boxHeld leafWords (fun _ => []) b k ∧
      (fin = true → (u.filter (·.1 = k)).map Prod.snd = boxHeld leafWords (fun _ => []) b k)) ∧ KeepsOrder (boxBefore b) u

theorem section_words {s : PdfD} {b : DocBox} {Ws : List Rat} (hb : BoxFit (docNest T refOf b.depth) b.els Ws) {rs : List Painted} (h : CallDrawn T fuel Ws s (.content b) rs) :
    BoxWords b true rs := by
  obtain ⟨rects, outs, h1, h2, h3, h4⟩ := h
  obtain ⟨ps, e1, e2, e3⟩ := content_held hb h1 h2 h3
  obtain ⟨u, u1, u2, u3⟩ := tags_words b.images ps
  have key : ∀ k, (u.filter (·.1 = k)).map Prod.snd = boxHeld leafWords (fun _ => []) b k := fun k => by rw [u2, e2, boxHeld_words]
  refine ⟨u, ?_, fun k => ⟨?_, fun _ => key k⟩, u3 _ e3⟩
  · rw [u1, piece_words h4, marks_atoms, e1]
  · rw [key k]

theorem running_words {H : Rat} {s : PdfD} {box : DocBox} {b : RunBox} {w : Rat} (hw : b.width = some w) (hb : BoxFit (docNest T refOf box.depth) box.els [w])
    {fin : Bool} {rs : List Painted} (h : RunDrawn T fuel H s box b fin rs) : BoxWords box fin rs := by
  obtain ⟨rect, o, h1, h2, h3, h4, -⟩ := h
  obtain ⟨ps, s', e1, e2, e3⟩ := content_runs [rect] [o] _ rfl (⟨h2, by simp, trivial⟩ : FlowChain (contentFlow T fuel box) _ [rect] [o])
  obtain ⟨u, u1, u2, u3⟩ := tags_words box.images (ps.map CPart.join)
  have hW : ∀ r ∈ [rect], r.2.2.1 ∈ [w] := by
    intro r hr
    simp only [List.mem_singleton] at hr
    subst hr
    have h1 := h1.1
    rw [hw] at h1
    simpa using h1
  have key := fun k => box_shows (docNest_good fuel box.depth) hb hW e1 k
  refine ⟨u, ?_, fun k => ⟨?_, fun hfin => ?_⟩, u3 _ (box_order doc_good hb hW e1)⟩
  · rw [u1, piece_words h3, ← e2]
    have := marks_atoms [o]
    simp only [List.flatMap_cons, List.flatMap_nil, List.append_nil] at this ⊢
    rw [this]
  · obtain ⟨t, ht⟩ := (key k).1
    rw [box_total] at ht
    rw [u2, ← boxHeld_words, ← ht, List.flatMap_append]
    exact List.prefix_append _ _
  · rw [u2, ← boxHeld_words, (key k).2 (by rw [e3 o rfl, ← h4]; exact hfin), box_total]

end

/-! ### The groups of pages -/

theorem filter_group : ∀ (groups : List PageGroup) (n : Nat), (∀ (i : Nat) g, groups[i]? = some g → ∀ r ∈ g.all, r.page = n + i) →
    ∀ i g, groups[i]? = some g → (groups.flatMap PageGroup.all).filter (fun r => r.page = n + i) = g.all := by
  intro groups
  induction groups with
  | nil => intro n _ i g hi; simp at hi
  | cons g0 groups ih =>
    intro n h i g hi
    rw [List.flatMap_cons, List.filter_append]
    have h0 := h 0 g0 rfl
    have hrest : ∀ (i : Nat) g, groups[i]? = some g → ∀ r ∈ g.all, r.page = n + 1 + i := fun i g hi r hr => by
      rw [h (i + 1) g (by simpa using hi) r hr]; omega
    cases i with
    | zero =>
      simp only [List.getElem?_cons_zero, Option.some.injEq] at hi
      subst hi
      rw [List.filter_eq_self.2, List.filter_eq_nil_iff.2, List.append_nil]
      · intro r hr
        obtain ⟨g, hg, hr⟩ := List.mem_flatMap.1 hr
        obtain ⟨j, hj, rfl⟩ := List.getElem_of_mem hg
        have := hrest j _ (List.getElem?_eq_getElem hj) r hr
        simp only [decide_eq_true_eq]
        omega
      · intro r hr
        simpa using h0 r hr
    | succ i =>
      rw [List.filter_eq_nil_iff.2 (by
        intro r hr
        have := h0 r hr
        simp only [decide_eq_true_eq]
        omega), List.nil_append]
      have := ih (n + 1) hrest i g (by simpa using hi)
      rw [show n + 1 + i = n + (i + 1) by omega] at this
      exact this

theorem places_filter (rs : List Painted) (i : Nat) : (runPlaces rs).filter (fun p => p.page = i) = runPlaces (rs.filter fun r => r.page = i) := by
  induction rs with
  | nil => rfl
  | cons r rs ih =>
    unfold runPlaces at ih ⊢
    cases hm : r.mark with
    | none =>
      rw [List.filterMap_cons_none (by simp [hm]), ih]
      by_cases hp : r.page = i
      · rw [List.filter_cons_of_pos (by simpa using hp), List.filterMap_cons_none (by simp [hm])]
      · rw [List.filter_cons_of_neg (by simpa using hp)]
    | some m =>
      rw [List.filterMap_cons_some (b := ⟨r.page, m.x, m.y, m.ids⟩) (by simp [hm])]
      by_cases hp : r.page = i
      · rw [List.filter_cons_of_pos (by simpa using hp), List.filter_cons_of_pos (by simpa using hp), List.filterMap_cons_some (b := ⟨r.page, m.x, m.y, m.ids⟩) (by simp [hm]), ih]
      · rw [List.filter_cons_of_neg (by simpa using hp), List.filter_cons_of_neg (by simpa using hp), ih]

section
variable {ε : Rat} {mk : Painted → List Mark}

theorem group_links {rnd : Rat → Rat} {δ : Rat} (hδ : ∀ v, |rnd v - v| ≤ δ) {rs : List Painted} (h : ∀ r ∈ rs, MarksNoted ε r (mk r)) :
    List.Forall₂ (fun (k : TextPiece × Mark × Action) q => AskedAround (fun k => markErr ε k + δ) k.1 k.2 q) (groupLinks mk rs)
      ((runPlaces rs).flatMap fun p => p.ids.flatMap (idLinks rnd p)) := by
  induction rs with
  | nil => exact .nil
  | cons r rs ih =>
    have ih := ih fun r hr => h r (List.mem_cons_of_mem _ hr)
    unfold groupLinks runPlaces at ih ⊢
    rw [List.flatMap_cons]
    cases hm : r.mark with
    | none =>
      rw [List.filterMap_cons_none (by simp [hm])]
      exact ih
    | some m =>
      rw [List.filterMap_cons_some (b := ⟨r.page, m.x, m.y, m.ids⟩) (by simp [hm]), List.flatMap_cons]
      refine List.rel_append ?_ ih
      rw [List.forall₂_map_left_iff]
      exact piece_links hδ hm (h r List.mem_cons_self) r.page

theorem group_spots {rnd : Rat → Rat} {δ : Rat} (hδ : ∀ v, |rnd v - v| ≤ δ) (width : Nat → Rat) (name : Str) {rs : List Painted} (h : ∀ r ∈ rs, MarksNoted ε r (mk r)) :
    List.Forall₂ (SpotAround fun k => markErr ε k + δ) (namedPieces mk name rs) (spotsOf rnd width name (runPlaces rs)) := by
  induction rs with
  | nil => exact .nil
  | cons r rs ih =>
    have ih := ih fun r hr => h r (List.mem_cons_of_mem _ hr)
    unfold namedPieces spotsOf runPlaces at ih ⊢
    rw [List.flatMap_cons]
    cases hm : r.mark with
    | none =>
      rw [List.filterMap_cons_none (by simp [hm])]
      exact ih
    | some m =>
      rw [List.filterMap_cons_some (b := ⟨r.page, m.x, m.y, m.ids⟩) (by simp [hm]), List.flatMap_cons]
      exact List.rel_append (piece_spots hδ width name hm (h r List.mem_cons_self)) ih

theorem group_outlines (json : Str → Option (Int × Str × Str)) {rs : List Painted} (h : ∀ r ∈ rs, MarksNoted ε r (mk r)) :
    outlinesOf json (runPlaces rs) = outlinePieces mk json rs := by
  induction rs with
  | nil => rfl
  | cons r rs ih =>
    have ih := ih fun r hr => h r (List.mem_cons_of_mem _ hr)
    unfold outlinesOf runPlaces outlinePieces at ih ⊢
    rw [List.flatMap_cons (f := fun r : Painted => _)]
    cases hm : r.mark with
    | none =>
      rw [List.filterMap_cons_none (by simp [hm])]
      exact ih
    | some m =>
      rw [List.filterMap_cons_some (b := ⟨r.page, m.x, m.y, m.ids⟩) (by simp [hm]), List.flatMap_cons, ih]
      congr 1
      exact piece_outlines json hm (h r List.mem_cons_self)

end

/-- what a reader finds of the links, names and outline of a document. `mk` are the pieces of text of what is shown; `δ` is what the numbers of links and names may be rounded by -/
structure BookLinked (R : PdfFile) (E : PdfEnv) (T : TextEnv) (ε δ : Rat) (B : Book) (l : List BookSec) (plans : List BookPage) (dicts : List (List (Bytes × PObj)))
    (shown : List (List PageGroup)) (mk : Painted → List Mark) : Prop where
  /-- the pieces of text are where they are shown -/
  texts : ∀ g ∈ shown.flatten, ∀ r ∈ g.all, TextMarked T.fmt T.metrics ε r (mk r)
  /-- their words, with their styles and ids, are those of the sections and running sections -/
  words : List.Forall₂ (fun (d : BookSec) gs => BoxWords d.box true (gs.flatMap Prod.snd)) l shown
  running : List.Forall₂ (fun (p : BookPage) (g : PageGroup) => List.Forall₂ (fun q rs => BoxWords (B.shows q.1.name p.plan.number) q.2 rs) (p.plan.boxes.zip p.fits) g.1)
    plans shown.flatten
  /-- the links of a page are around the pieces that carry them, and lead where these say -/
  links : List.Forall₂ (fun D (g : PageGroup) => ∃ ls, R.links D = some ls ∧
    List.Forall₂ (fun q (a : Link) => a.action = q.2.2 ∧ LinkAround E.num (markErr ε q.2.1 + δ) q.1 q.2.1 a.rect) (groupLinks mk g.all) ls) dicts shown.flatten
  /-- a name leads to the upper left corner of the first piece that carries it in the last paragraph with such a piece, on its page -/
  names : ∃ N ns, (∀ depth, N ≤ depth → R.pages depth = some ns) ∧ ∀ depth, N ≤ depth → ∀ name : Str, (name.all fun c => decide (c.toNat < 256)) = true →
    match (namedPieces mk name (shown.flatten.flatMap PageGroup.all)).getLast? with
    | none => R.dest depth (latinBytes name) = none
    | some (i, m, k) => ∃ id x y z mx my mz, ns[i]? = some id ∧ meaning (E.num x) = some mx ∧ meaning (E.num y) = some my ∧ meaning (E.num z) = some mz ∧
        |x - (m.x + k.x)| ≤ markErr ε k + δ ∧ |y - (m.y + (k.base + 3 * k.size / 4))| ≤ markErr ε k + δ ∧
        R.dest depth (latinBytes name) = some (.arr [.ref id 0, .name b!"XYZ", mx, my, mz])
  /-- the outline has the items that the pieces ask for, in their order -/
  outline : ∃ N, ∀ depth, N ≤ depth → ∃ o, R.outline depth = some o ∧
    Bookmark.allItems 1 o = (outlinePieces mk E.json (shown.flatten.flatMap PageGroup.all)).map fun x => (outlineLevel x.1, latinBytes x.2.1, latinBytes x.2.2)

/-- a running section with such paragraphs -/
def RunPlain (T : TextEnv) (refOf : Str → Str → Str) (shows : Str → DocBox) (b : RunBox) : Prop :=
  ∃ w, b.width = some w ∧ BoxFit (plainNest T refOf (shows b.name).depth) (shows b.name).els [w]

/-- **C89.** A document built from sections, as in C84, with paragraphs without indents: in its file, the links of a page are exactly those of the pieces of text on this
page that carry ids of links. The rectangle of a link is around its piece, where it is shown, and leads where the id says. A name leads to the last place where a label
with this name is shown, and a name that is not shown leads nowhere. The outline has exactly the items that shown pieces ask for, in their order. Backgrounds and
underlines are painted where their pieces are shown. The pieces are those of the paragraphs of the document, with their ids. Partial: see DESIGN.md. -/
theorem C89_links_partial {E : PdfEnv} {T : TextEnv} (hT : T.Ok) {refOf : Str → Str → Str} {B : Book} {fuel : Nat} {version : Str} {setup : PageSetup} {offset : Int}
    {roman : Bool} {l : List BookSec} {p : FProc} {s : BookSt} (h : madeBook E T fuel B version setup offset roman l p = .ok s) {Ws : List Rat}
    (hW : ∀ pl ∈ s.plans, pl.plan.sheet.w - pl.plan.sheet.right - pl.plan.sheet.left ∈ Ws) (hl : ∀ d ∈ l, BoxFit (plainNest T refOf d.box.depth) d.box.els Ws)
    (hr : ∀ pl ∈ s.plans, ∀ b ∈ pl.plan.boxes, RunPlain T refOf (fun n => B.shows n pl.plan.number) b) (him : ImagesOk (bookOps B l s.plans))
    (hact : ∀ a ∈ bookOps B l s.plans, ∀ im, a.HasImage im → ¬ isAction im.obj)
    {ε δ : Rat} (hε : T.fmt.Signed ε) (hδ : ∀ v, |E.rnd v - v| ≤ δ)
    {level : Int} {b : Base} (hb : s.pdf.doc.withTrees E.num level = .ok b) (hread : ∀ o ∈ b.content, readable o.value = true)
    (flate : Bytes → Bytes) (u1 u2 : Bytes) (hok : (b.output flate u1 u2).err = none) (hsmall : (b.output flate u1 u2).written.length < 10 ^ 10)
    (hu1 : 60 ∉ u1 ∧ 62 ∉ u1) (hu2 : 60 ∉ u2 ∧ 62 ∉ u2) :
    ∃ R ids dicts pages shown mk, openFile (b.output flate u1 u2).written = some R ∧ BookRead R flate E.num B l s.plans ids dicts pages shown ∧
      BookLinked R E T ε δ B l s.plans dicts shown mk := by
  have hl' : ∀ d ∈ l, BoxFit (docNest T refOf d.box.depth) d.box.els Ws := fun d hd => (plain_stronger _).box (hl d hd)
  have hr' : ∀ pl ∈ s.plans, ∀ b ∈ pl.plan.boxes, RunFits T refOf (fun n => B.shows n pl.plan.number) b := by
    intro pl hpl b hb
    obtain ⟨w, e, hbox⟩ := hr pl hpl b hb
    exact ⟨w, e, (plain_stronger _).box hbox⟩
  obtain ⟨R, ids, dicts, pages, shown, h1, h2, h3, h4, h5, h6⟩ := book_read hT h hW hl' hr' him hb hread flate u1 u2 hok hsmall hu1 hu2
  -- the pieces
  have hbody : ∀ g ∈ shown.flatten, ∀ r ∈ g.2, ∃ marks, TextMarked T.fmt T.metrics ε r marks ∧ MarksNoted ε r marks := by
    intro g hg r hr
    obtain ⟨pl, hpl, d, hd, c, o, hc, ho, hrs, -⟩ := forall₂_right h4 g hg
    exact flow_marked hε (hl d hd) hc (hW pl hpl) ho hrs r hr
  have hrun : ∀ g ∈ shown.flatten, ∀ r ∈ g.1.flatten, ∃ marks, TextMarked T.fmt T.metrics ε r marks ∧ MarksNoted ε r marks := by
    clear h4 h1 h2 h5 h6 hbody
    generalize shown.flatten = gs at h3
    clear hW him hread hb hok hsmall hact hr' hl'
    generalize s.plans = plans at *
    induction h3 with
    | nil => intro g hg; cases hg
    | @cons p plans g gs hd _ ih =>
      have ih := ih fun pl hpl => hr pl (List.mem_cons_of_mem _ hpl)
      intro g' hg'
      rcases List.mem_cons.1 hg' with rfl | hg'
      · have a1 := hr p List.mem_cons_self
        clear ih hr
        generalize p.plan.boxes = boxes at *
        generalize p.fits = fits at *
        generalize g'.1 = rss at *
        induction hd with
        | nil => intro r hr; cases hr
        | @cons b boxes fin fs rs rss hd _ ih =>
          intro r hr
          rw [List.flatten_cons] at hr
          rcases List.mem_append.1 hr with hr | hr
          · obtain ⟨rect, o, ⟨e1, e2⟩, e3, e4, -⟩ := hd
            obtain ⟨w0, k1, k2⟩ := a1 b List.mem_cons_self
            rw [k1] at e1
            cases e1
            exact flow_marked hε k2 ⟨rfl, [], [], by simp, rfl⟩ List.mem_cons_self e3 e4 r hr
          · exact ih (fun b hb => a1 b (List.mem_cons_of_mem _ hb)) r hr
      · exact ih g' hg'
  have hall : ∀ g ∈ shown.flatten, ∀ r ∈ g.all, ∃ marks, TextMarked T.fmt T.metrics ε r marks ∧ MarksNoted ε r marks := by
    intro g hg r hr
    rcases List.mem_append.1 hr with hr | hr
    · exact hrun g hg r hr
    · exact hbody g hg r hr
  classical
  let mk : Painted → List Mark := fun r => if hx : ∃ marks, TextMarked T.fmt T.metrics ε r marks ∧ MarksNoted ε r marks then hx.choose else []
  have hmk : ∀ g ∈ shown.flatten, ∀ r ∈ g.all, TextMarked T.fmt T.metrics ε r (mk r) ∧ MarksNoted ε r (mk r) := by
    intro g hg r hr
    have hx := hall g hg r hr
    simp only [mk, dif_pos hx]
    exact hx.choose_spec
  have hnoted : ∀ r ∈ shown.flatten.flatMap PageGroup.all, MarksNoted ε r (mk r) := by
    intro r hr
    obtain ⟨g, hg, hr⟩ := List.mem_flatMap.1 hr
    exact (hmk g hg r hr).2
  -- the file
  obtain ⟨sizes, hops⟩ := h5.drawn.links (by
    rintro im ⟨a, ha, hi⟩
    exact hact a ha im hi)
  obtain ⟨R', N, ns, r1, -, r3, r4, r5, r6⟩ := ops_read (E := E) h5.drawn.out hops hb hread flate u1 u2 hok hsmall hu1 hu2
  rw [h1] at r1
  cases r1
  obtain ⟨N', ns', n1, n2, n3⟩ := h2.read
  have hns : ns = ns' := by
    have a := r3 (max N N') (le_max_left _ _)
    rw [n1 _ (le_max_right _ _)] at a
    exact (Option.some.inj a).symm
  subst hns
  refine ⟨R, ids, dicts, pages, shown, mk, h1, h2, ⟨fun g hg r hr => (hmk g hg r hr).1, ?_, ?_, ?_, ⟨N, ns, r3, ?_⟩, ⟨N, ?_⟩⟩⟩
  · refine forall₂_left h6 fun d hd gs hgs => section_words (hl' d hd) hgs.2
  · clear hmk hnoted hops r3 r4 r5 r6 hall hrun hbody h1 h2 h4 h5 h6 mk n1 n2 n3
    generalize shown.flatten = gs at h3
    clear hW him hread hb hok hsmall hact hr
    generalize s.plans = plans at *
    induction h3 with
    | nil => exact .nil
    | @cons p plans g gs hd _ ih =>
      refine .cons ?_ (ih fun pl hpl => hr' pl (List.mem_cons_of_mem _ hpl))
      have a1 := hr' p List.mem_cons_self
      clear ih hr'
      generalize p.plan.boxes = boxes at *
      generalize p.fits = fits at *
      generalize g.1 = rss at *
      induction hd with
      | nil => exact .nil
      | @cons b boxes fin fs rs rss hd _ ih =>
        obtain ⟨w0, k1, k2⟩ := a1 b List.mem_cons_self
        exact .cons (running_words k1 k2 hd) (ih fun b hb => a1 b (List.mem_cons_of_mem _ hb))
  · have hlen : dicts.length = shown.flatten.length := by
      have := n3.length_eq
      have := h2.pieces.length_eq
      omega
    rw [List.forall₂_iff_get] at n2 ⊢
    refine ⟨hlen, fun i hi1 hi2 => ?_⟩
    have hn : i < ns.length := by omega
    have hD := n2.2 i hn hi1
    obtain ⟨D, -, -, -, -, ls, d1, -, -, -, -, d2, d3⟩ := r4 i ns[i] (List.getElem?_eq_getElem hn)
    simp only [List.get_eq_getElem] at hD ⊢
    rw [hD] at d1
    cases d1
    refine ⟨ls, d2, ?_⟩
    have hg := filter_group shown.flatten 0 (by simpa using h5.pages) i _ (List.getElem?_eq_getElem hi2)
    rw [Nat.zero_add] at hg
    unfold linksOn at d3
    rw [places_filter, hg] at d3
    have hk := group_links hδ (rs := shown.flatten[i].all) (mk := mk) (ε := ε) fun r hr => (hmk _ (List.getElem_mem hi2) r hr).2
    refine forall2_comp ?_ hk d3
    rintro ⟨m, k, act⟩ ⟨q1, q2⟩ a ⟨b1, x1, x2, x3, x4, b2, b3, b4, b5, b6⟩ ⟨c1, c2⟩
    simp only at b1 b2
    subst b1 b2
    exact ⟨c2, x1, x2, x3, x4, c1, b3, b4, b5, b6⟩
  · intro depth hd name hname
    have h7 := r5 depth hd name hname
    have hsp := group_spots hδ (fun i => ((sizes[i]?).map Prod.fst).getD 0) name hnoted
    rcases forall₂_getLast? hsp with ⟨e1, e2⟩ | ⟨⟨i, m, k⟩, ⟨i', x, y, z⟩, e1, e2, e3, e4, e5⟩
    · rw [e1]
      rw [e2] at h7
      exact h7
    · rw [e1]
      rw [e2] at h7
      simp only at e3 e4 e5
      subst e3
      obtain ⟨id, mx, my, mz, k1, k2, k3, k4, k5⟩ := h7
      exact ⟨id, x, y, z, mx, my, mz, k1, k2, k3, k4, e4, e5, k5⟩
  · intro depth hd
    obtain ⟨o, o1, o2⟩ := r6 depth hd
    refine ⟨o, o1, ?_⟩
    rw [o2, group_outlines E.json hnoted]

/-! ### An example -/

def ex89E : PdfEnv := { ex77E with json := fun _ => some (1, c!"Title", c!"l") }

/-- words, of which the last ones carry ids -/
def ex89Par (s t : Str) (ids : List Str) : TextArgs :=
  ⟨⟨[.text (splitWords s) (samplePart [] none).look none, .text (splitWords t) (samplePart [] none).look (some ids)], 0, c!"l", 1, none⟩, none⟩

def ex89Box (t : Nat) (a : TextArgs) : DocBox := ⟨1, fun _ => ex80Image, none, [.leaf (ex80Leaf 0 t (.par a [] true)) ex80CSt]⟩

/-- a header that links to a name, a section with this name, and one with a link out of the document that is an item of the outline -/
def ex89Book : Book where
  float _ := none
  order l := l
  style := ⟨none, none, none, none, none, none⟩
  secs := [(c!"head", ⟨.num 90, .num 13, .num 5, .num 1⟩)]
  perPage := []
  shows _ number := ex89Box 0 (ex89Par (number ++ c!" ") c!"to" [c!"$ref:l"])

def ex89Secs : List BookSec :=
  [⟨⟨none, none, none, none, none, none⟩, [], ex89Box 0 (ex89Par c!"a " c!"b c" [c!"$label:l"])⟩,
   ⟨⟨none, none, none, none, none, none⟩, [c!"head"], ex89Box 0 (ex89Par c!"d " c!"e" [c!"$uri:u", c!"$outline:o"])⟩]

def ex89 : CRun BookSt := madeBook ex89E ex77T 40 ex89Book c!"1.5" ex84Setup 0 false ex89Secs ⟨[], []⟩

def ex89File : Option PdfFile :=
  match ex89 with
  | .error _ => none
  | .ok s => match s.pdf.doc.withTrees ex89E.num 1 with
    | .error _ => none
    | .ok b => openFile (b.output id b!"00" b!"11").written

theorem ex89_readable (s t : Str) (ids : List Str) : Readable ex77T.fmt sampleRef (ex89Par s t ids).cfg := by
  have hx : ∀ x ∈ contentLooks (ex89Par s t ids).cfg.content, x = (samplePart [] none).look := by
    intro x hx
    simpa [contentLooks, ex89Par] using hx
  refine ⟨⟨?_, (by intro lc h; cases h), (by intro lc h; cases h)⟩, ?_, rfl⟩
  · intro x h
    rw [hx x h]
    exact sampleSt_ok
  · intro x h
    rw [hx x h]
    exact ⟨⟨fun h => by simp [samplePart] at h, fun h => by simp [samplePart] at h⟩, rfl⟩

theorem ex89_fit (tag : Nat) (s t : Str) (ids : List Str) (w : Rat) : BoxFit (plainNest ex77T sampleRef 1) (ex89Box tag (ex89Par s t ids)).els [w] := by
  refine ⟨?_, ?_, ?_, (List.nodup_singleton tag :)⟩
  · intro e he
    rw [List.mem_singleton.1 he]
    norm_num [ElTidy, ex80CSt]
  · intro c st he
    obtain ⟨rfl, rfl⟩ := CEl.leaf.inj (List.mem_singleton.1 he)
    rfl
  · intro c st he W hm
    obtain ⟨rfl, rfl⟩ := CEl.leaf.inj (List.mem_singleton.1 he)
    refine ⟨⟨show (0 : Rat) < 1 by norm_num, ex89_readable s t ids⟩, rfl, fun w hw => ?_⟩
    have hw : w ∈ splitWords s ++ (splitWords t ++ []) := hw
    rcases List.mem_append.1 hw with hw | hw
    · exact splitWords_blank s w hw
    · rw [List.append_nil] at hw
      exact splitWords_blank t w hw

/-- the boxes of the example fit, wherever they are put -/
example : (∀ d ∈ ex89Secs, BoxFit (plainNest ex77T sampleRef d.box.depth) d.box.els [90]) ∧
    ∀ number, ∀ b : RunBox, (∃ w, b.width = some w) → RunPlain ex77T sampleRef (fun n => ex89Book.shows n number) b := by
  constructor
  · intro d hd
    simp only [ex89Secs, List.mem_cons, List.not_mem_nil, or_false] at hd
    rcases hd with rfl | rfl <;> exact ex89_fit ..
  · rintro number b ⟨w, hw⟩
    exact ⟨w, hw, ex89_fit ..⟩

/-- the file: the words, ... -/
example : (ex89File.bind fun R => (R.pages 3).map fun ids => ids.map fun n => (R.dict n).bind fun D => (R.pageEvents id D).map eventWords) =
    some [some [c!"a", c!"b", c!"c"], some [c!"2", c!"to", c!"d", c!"e"]] := by decide +kernel

/-- ... where each of them begins its line, ... -/
example : (ex89File.bind fun R => (R.pages 3).map fun ids => ids.map fun n => (R.dict n).bind fun D => (R.pageEvents id D).map fun e =>
      e.filterMap fun | .text gs tm mv s => some (Event.text gs tm mv s).origin | _ => none) =
    some [some [some (5, 49), some (5, 49), some (5, 49)], some [some (5, 63), some (5, 63), some (5, 49), some (5, 49)]] := by decide +kernel

def ex89Int : PObj → Int
  | .int i => i
  | .ref i _ => i
  | _ => 0

/-- ... the links, around the words `to` and `e`, ... -/
example : (ex89File.bind fun R => (R.pages 3).map fun ids => ids.map fun n => (R.dict n).bind fun D => (R.links D).map fun ls => ls.map fun a => (a.action, a.rect.map ex89Int)) =
    some [some [], some [(.goto b!"l", [25, 60, 45, 70]), (.uri b!"u", [25, 46, 35, 56])]] := by decide +kernel

/-- ... the place of `b`, on the first page, ... -/
example : (ex89File.bind fun R => R.dest 5 b!"l").map (fun | .arr l => l.map ex89Int | _ => []) = some [4, 0, 25, 56, 5] := by decide +kernel

/-- ... and the outline -/
example : (ex89File.bind fun R => (R.outline 5).map fun o => Bookmark.allItems 1 o) = some [(1, b!"Title", b!"l")] := by decide +kernel

end Verif
