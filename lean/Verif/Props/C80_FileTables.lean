import Verif.Lemmas.DocNest
import Verif.Props.C77_FileText
/-! C80: paragraphs, images and tables given to a document can be read in its file. -/
namespace Verif
open Spec

/-! ### What is in the calls -/

/-- the image of a content -/
def leafImages : DocLeaf → List PImg
  | .par _ _ _ => []
  | .image im _ => [im]

/-- the images of a call -/
def AddOp.HasImage : AddOp → PImg → Prop
  | .image im _ _ _ _, q => q = im
  | .table t, q => ∃ i j c b, cellAt t.content i j = some c ∧ c.content = some (.image q b)
  | .grid g, q => ∃ k, q ∈ gridHeld leafImages (fun n => [g.images n]) g k
  | .content b, q => ∃ k, q ∈ boxHeld leafImages (fun n => [b.images n]) b k
  | _, _ => False

/-- the widths of the pages, without margins -/
def docWidths (k : Sheet) (l : List AddOp) : List Rat := (k.w - k.right - k.left) :: l.filterMap fun
  | .page k => some (k.w - k.right - k.left)
  | _ => none

/-- what the calls are given can be shown -/
def AddOp.Ok (T : TextEnv) (refOf : Str → Str → Str) (Ws : List Rat) : AddOp → Prop
  | .page _ => True
  | .text a => Readable T.fmt refOf a.cfg
  | .image _ _ _ _ _ => True
  | .table t => DocTableOk T refOf Ws t
  | .grid g => TableFit (docNest T refOf g.depth) g.data Ws
  | .content b => BoxFit (docNest T refOf b.depth) b.els Ws

/-- images with the same name have the same object, which is not one of those that the document changes when it is written -/
structure ImagesOk (l : List AddOp) : Prop where
  same : ∀ a ∈ l, ∀ b ∈ l, ∀ im im', a.HasImage im → b.HasImage im' → im.name = im'.name → im.obj = im'.obj
  own : ∀ a ∈ l, ∀ im, a.HasImage im → im.obj ≠ freshCatalog ∧ im.obj ≠ freshStream ∧ ∀ m, im.obj ≠ freshPage m

/-! ### What is read in the file -/

/-- the object `id` is that of the image: it has its entries and, when its data are not to be compressed again, exactly its data -/
def ImageRead (R : PdfFile) (id : Nat) (im : PImg) : Prop :=
  ∃ D, R.dict id = some D ∧ (∀ k, okKey k → Spec.lookup (latinBytes k) D = (dget (.str k) im.obj).bind meaning) ∧
    ∀ st, dget (.str c!"__stream__") im.obj = some st → (dget (.str c!"__skip_filter__") im.obj).map truthy = some true →
      ∃ data, R.object id = some (.dict D, some data) ∧ streamData st = some data

/-- the words and images of a piece; the names of images are those of its page -/
def pieceSeen (dicts : List (List (Bytes × PObj))) (r : Painted) : List Seen :=
  eventSeen (fun n => (dicts[r.page]?).bind (resource b!"XObject" n)) r.evs

/-- the words and the image at a position of a table -/
def cellSeen (ids : Str → Nat) (t : DocTable) (i j : Nat) : List Seen :=
  match (cellAt t.content i j).bind Cell.content with
  | some (.par a _ _) => (contentWordsOf a.cfg.content).map .word
  | some (.image im _) => [.image (some (ids im.name))]
  | none => []

/-- the words or the image of a content -/
def leafSeen (ids : Str → Nat) : DocLeaf → List Seen
  | .par a _ _ => (contentWordsOf a.cfg.content).map .word
  | .image im _ => [.image (some (ids im.name))]

/-- the images of boxes -/
def imageSeen (ids : Str → Nat) (images : Nat → PImg) (n : Nat) : List Seen := [.image (some (ids (images n).name))]

/-- what the pieces of a call show; in tables and content boxes with others in them, every word and image seen has a tag -/
def CallRead (ids : Str → Nat) (dicts : List (List (Bytes × PObj))) : AddOp → List Painted → Prop
  | .page _, rs => rs = []
  | .text a, rs => wordsOf (rs.flatMap fun r => eventToks none r.evs) = contentWordsOf a.cfg.content ∧ (rs.flatMap fun r => eventImages r.evs) = []
  | .image im _ _ _ _, rs => rs.flatMap (pieceSeen dicts) = [.image (some (ids im.name))]
  | .table t, rs => ∃ u : List ((Nat × Nat) × Seen), u.map Prod.snd = rs.flatMap (pieceSeen dicts) ∧ (∀ i j, labelled u i j = cellSeen ids t i j) ∧
      ((∀ i j c, cellAt t.content i j = some c → c.rows = 0) → (u.map (·.1.1)).Pairwise (· ≤ ·))
  | .grid g, rs => ∃ u : List (Nat × Seen), u.map Prod.snd = rs.flatMap (pieceSeen dicts) ∧
      (∀ k, (u.filter (·.1 = k)).map Prod.snd = gridHeld (leafSeen ids) (imageSeen ids g.images) g k) ∧ KeepsOrder (gridBefore g) u
  | .content b, rs => ∃ u : List (Nat × Seen), u.map Prod.snd = rs.flatMap (pieceSeen dicts) ∧
      (∀ k, (u.filter (·.1 = k)).map Prod.snd = boxHeld (leafSeen ids) (imageSeen ids b.images) b k) ∧ KeepsOrder (boxBefore b) u

/-- what a reader finds in a file: `dicts` and `pages` are its pages and what they show; each call is shown in pieces, each of them on a page; `ids`
gives the objects of images -/
structure DocRead (R : PdfFile) (flate : Bytes → Bytes) (l : List AddOp) (ids : Str → Nat) (dicts : List (List (Bytes × PObj))) (pages : List (List Event))
    (shown : List (List Painted)) : Prop where
  read : ∃ N ns, (∀ depth, N ≤ depth → R.pages depth = some ns) ∧ List.Forall₂ (fun n D => R.dict n = some D) ns dicts ∧
    List.Forall₂ (fun D evs => ∀ inflate, (∀ x, inflate (flate x) = x) → R.pageEvents inflate D = some evs) dicts pages
  /-- the pages show exactly the pieces, in their order -/
  pieces : ∀ i evs, pages[i]? = some evs → evs = (shown.flatten.filter fun r => r.page = i).flatMap Painted.evs
  bound : ∀ r ∈ shown.flatten, r.page < pages.length
  /-- later pieces are not on earlier pages -/
  order : (shown.flatten.map Painted.page).Pairwise (· ≤ ·)
  calls : List.Forall₂ (CallRead ids dicts) l shown
  images : ∀ a ∈ l, ∀ im, a.HasImage im → ImageRead R (ids im.name) im

/-! ### The calls -/

/-- what a call puts on the pages -/
def CallDrawn (T : TextEnv) (fuel : Nat) (Ws : List Rat) (s : PdfD) : AddOp → List Painted → Prop
  | .page _, rs => rs = []
  | .text a, rs => wordsOf (rs.flatMap fun r => eventToks none r.evs) = contentWordsOf a.cfg.content ∧ ∀ r ∈ rs, ∀ e ∈ r.evs, Event.plain e
  | .image im _ _ _ _, rs => ∃ r X Y w h, rs = [r] ∧ PieceShows T s (some (.image im X Y w h)) r
  | .table t, rs => ∃ rects outs, FlowChain (tableFlow t) (TS.new 0 0 0 0) rects outs ∧ (∀ r ∈ rects, r.2.2.1 ∈ Ws) ∧
      (∃ o, outs.getLast? = some o ∧ o.finished = true) ∧ List.Forall₂ (PieceShows T s) (outs.flatMap FlowOut.marks) rs
  | .grid g, rs => ∃ rects outs, FlowChain (gridFlow T fuel g) (TS.new 0 0 0 0) rects outs ∧ (∀ r ∈ rects, r.2.2.1 ∈ Ws) ∧
      (∃ o, outs.getLast? = some o ∧ o.finished = true) ∧ List.Forall₂ (PieceShows T s) (outs.flatMap FlowOut.marks) rs
  | .content b, rs => ∃ rects outs, FlowChain (contentFlow T fuel b) (CContent.new 1 b.gap b.els) rects outs ∧ (∀ r ∈ rects, r.2.2.1 ∈ Ws) ∧
      (∃ o, outs.getLast? = some o ∧ o.finished = true) ∧ List.Forall₂ (PieceShows T s) (outs.flatMap FlowOut.marks) rs

theorem CallDrawn.later {T : TextEnv} {fuel : Nat} {Ws : List Rat} {s s' : PdfD} (hl : Later s s') : ∀ {a : AddOp} {rs : List Painted}, CallDrawn T fuel Ws s a rs → CallDrawn T fuel Ws s' a rs
  | .page _, _, h => h
  | .text _, _, h => h
  | .image .., _, ⟨r, X, Y, w, h, h1, h2⟩ => ⟨r, X, Y, w, h, h1, h2.later hl⟩
  | .table _, _, ⟨rects, outs, h1, h2, h3, h4⟩ => ⟨rects, outs, h1, h2, h3, h4.imp fun _ _ h => h.later hl⟩
  | .grid _, _, ⟨rects, outs, h1, h2, h3, h4⟩ => ⟨rects, outs, h1, h2, h3, h4.imp fun _ _ h => h.later hl⟩
  | .content _, _, ⟨rects, outs, h1, h2, h3, h4⟩ => ⟨rects, outs, h1, h2, h3, h4.imp fun _ _ h => h.later hl⟩

/-- the images that are held -/
def heldImages (images : Nat → PImg) : CAtom LAtom → List PImg
  | .text (.word _) => []
  | .text (.image q) => [q]
  | .image n => [images n]

theorem leafHeld_images (images : Nat → PImg) (l : DocLeaf) : (leafHeld l).flatMap (heldImages images) = leafImages l := by
  cases l with
  | par a rects correct =>
    simp only [leafHeld, leafOf, leafAtoms, List.map_map]
    rw [List.flatMap_eq_nil_iff.2]
    · rfl
    · intro x hx
      obtain ⟨w, -, rfl⟩ := List.mem_map.1 hx
      rfl
  | image im b => rfl

theorem heldImage_mem {images : Nat → PImg} {tot : Nat → List (CAtom LAtom)} {im : PImg} : heldImage images tot im ↔ ∃ k, im ∈ (tot k).flatMap (heldImages images) := by
  constructor
  · rintro ⟨k, a, ha, h⟩
    refine ⟨k, List.mem_flatMap.2 ⟨a, ha, ?_⟩⟩
    match a, h with
    | .text (.image q), h => simpa [heldImages] using h
    | .image n, h => simpa [heldImages] using h
  · rintro ⟨k, h⟩
    obtain ⟨a, ha, h⟩ := List.mem_flatMap.1 h
    refine ⟨k, a, ha, ?_⟩
    match a, h with
    | .text (.word _), h => simp [heldImages] at h
    | .text (.image q), h => simpa [heldImages] using h
    | .image n, h => simpa [heldImages] using h

theorem grid_images (g : DocGrid) (im : PImg) : heldImage g.images (gridHeld leafHeld imageHeld g) im ↔ (AddOp.grid g).HasImage im := by
  rw [heldImage_mem]
  simp only [← gridHeld_flatMap, leafHeld_images]
  rfl

theorem box_images (b : DocBox) (im : PImg) : heldImage b.images (boxHeld leafHeld imageHeld b) im ↔ (AddOp.content b).HasImage im := by
  rw [heldImage_mem]
  simp only [← boxHeld_flatMap, leafHeld_images]
  rfl

section
variable {E : PdfEnv} {T : TextEnv} {refOf : Str → Str → Str} {L : PImg → Prop} {Ws : List Rat} {k : Sheet} {fuel : Nat}

theorem put_drawn (hT : T.Ok) (hW : k.w - k.right - k.left ∈ Ws) {a : AddOp} (ha : a.Ok T refOf Ws) (hL : ∀ im, a.HasImage im → L im)
    (hp : ∀ k, a = .page k → k.w - k.right - k.left ∈ Ws) {p p' : FProc} {s s' : PdfD} {runs : List Painted} (hs : DrawnDoc E L (· ∈ Ws) s runs)
    (h : s.put E T k fuel p a = .ok (p', s')) :
    ∃ rs, CallDrawn T fuel Ws s' a rs ∧ DrawnDoc E L (· ∈ Ws) s' (runs ++ rs) ∧ Later s s' := by
  cases a with
  | page k' =>
    cases h
    obtain ⟨a1, a2⟩ := drawn_nextPage hs (hp k' rfl)
    exact ⟨[], rfl, by simpa using a1, a2⟩
  | text a =>
    obtain ⟨rs, a1, a2, a3, a4, -⟩ := drawn_call hT hW hs ha h
    exact ⟨rs, ⟨a3, a4⟩, a1, a2⟩
  | image im x y w ht =>
    simp only [PdfD.put] at h
    split at h
    · cases h
    · rename_i s1 h1
      cases h
      obtain ⟨pg, X, Y, width, height, r, -, -, -, -, a1, a2, a3⟩ := drawn_image hT hs (hL im rfl) h1
      exact ⟨[r], ⟨r, X, Y, width, height, rfl, a1⟩, a2, a3⟩
  | table t =>
    obtain ⟨rects, outs, rs, a1, a2, a3, a4, a5, a6⟩ := drawn_flow hT (table_safe ha fun i j c im b hc hx => hL im ⟨i, j, c, b, hc, hx⟩) hW hs
      (LateFine.new 0 0 0 0) h
    exact ⟨rs, ⟨rects, outs, a1, a2, a3, a4⟩, a5, a6⟩
  | grid g =>
    obtain ⟨rects, outs, rs, a1, a2, a3, a4, a5, a6⟩ := drawn_flow hT (grid_safe ha fun im hi => hL im ((grid_images g im).1 hi)) hW hs
      ⟨[], [], by simp, rfl⟩ h
    exact ⟨rs, ⟨rects, outs, a1, a2, a3, a4⟩, a5, a6⟩
  | content b =>
    obtain ⟨rects, outs, rs, a1, a2, a3, a4, a5, a6⟩ := drawn_flow hT (content_safe ha fun im hi => hL im ((box_images b im).1 hi)) hW hs
      ⟨rfl, [], [], by simp, rfl⟩ h
    exact ⟨rs, ⟨rects, outs, a1, a2, a3, a4⟩, a5, a6⟩

theorem puts_drawn (hT : T.Ok) (hW : k.w - k.right - k.left ∈ Ws) : ∀ (l : List AddOp) {p p' : FProc} {s s' : PdfD} {runs : List Painted},
    (∀ a ∈ l, a.Ok T refOf Ws) → (∀ a ∈ l, ∀ im, a.HasImage im → L im) → (∀ k, AddOp.page k ∈ l → k.w - k.right - k.left ∈ Ws) →
    DrawnDoc E L (· ∈ Ws) s runs → s.puts E T k fuel l p = .ok (p', s') →
    ∃ rss, List.Forall₂ (CallDrawn T fuel Ws s') l rss ∧ DrawnDoc E L (· ∈ Ws) s' (runs ++ rss.flatten) ∧ Later s s' := by
  intro l
  induction l with
  | nil =>
    intro p p' s s' runs _ _ _ hs h
    cases h
    exact ⟨[], .nil, by simpa using hs, .refl _⟩
  | cons a l ih =>
    intro p p' s s' runs ha hL hp hs h
    simp only [PdfD.puts] at h
    cases h1 : s.put E T k fuel p a with
    | error e => rw [h1] at h; cases h
    | ok r =>
      rw [h1] at h
      obtain ⟨rs, a1, a2, a3⟩ := put_drawn hT hW (ha a (by simp)) (hL a (by simp)) (fun k hk => hp k (by simp [hk])) hs (p' := r.1) (s' := r.2) h1
      obtain ⟨rss, b1, b2, b3⟩ := ih (fun a h => ha a (by simp [h])) (fun a h => hL a (by simp [h])) (fun k h => hp k (by simp [h])) a2 h
      exact ⟨rs :: rss, .cons (a1.later b3) b1, by simpa using b2, a3.trans b3⟩

end

/-! ### Words and images of pieces -/

theorem eventImages_plain {l : List Event} (h : ∀ e ∈ l, Event.plain e) : eventImages l = [] := by
  unfold eventImages
  rw [List.filterMap_eq_nil_iff]
  intro e he
  have := h e he
  cases e <;> first | rfl | exact this.elim

theorem eventToks_mute : ∀ {l : List Event} (place : Option (List Bytes × List (Bytes × Bytes))), (∀ e ∈ l, Event.mute e) → eventToks place l = [.sep] := by
  intro l
  induction l with
  | nil => intro place _; simp [eventToks]
  | cons e l ih =>
    intro place h
    have h1 := h e (by simp)
    have h2 := ih place fun e he => h e (by simp [he])
    cases e with
    | text => exact h1.elim
    | fill => exact h2
    | stroke => exact h2
    | xobject => exact h1.elim

theorem eventImages_mute {l : List Event} (h : ∀ e ∈ l, Event.mute e) : eventImages l = [] :=
  eventImages_plain fun e he => by
    have := h e he
    cases e <;> trivial

/-- an atom of a cell, as it is seen -/
def atomSeen (ids : Str → Nat) : LAtom → List Seen
  | .word w => (wordsOf (w.flatMap pieceChars)).map .word
  | .image im => [.image (some (ids im.name))]

theorem lines_atoms (ids : Str → Nat) (ls : List (TLine × Bool)) :
    ((wordsOf (ls.flatMap lineToks)).map LAtom.word).flatMap (atomSeen ids) = (wordsOf (ls.flatMap lineChars)).map .word := by
  rw [(Same.flatMap fun l _ => same_line l).words, ← List.flatMap_assoc, wordsOf_tokChars, List.flatMap_map, List.map_flatMap]
  rfl

theorem content_atoms (ids : Str → Nat) (content : List TItem) :
    ((wordsOf (content.flatMap itemToks)).map LAtom.word).flatMap (atomSeen ids) = (contentWordsOf content).map .word := by
  rw [contentWordsOf, (Same.flatMap fun i _ => same_item i).words, ← List.flatMap_assoc, wordsOf_tokChars, List.flatMap_map, List.map_flatMap]
  rfl

theorem cell_atoms (ids : Str → Nat) (t : DocTable) (i j : Nat) :
    (cellAtoms (fun c => leafAtoms (leafOf c)) t.content i j).flatMap (atomSeen ids) = cellSeen ids t i j := by
  unfold cellAtoms cellSeen
  cases hc : cellAt t.content i j with
  | none => rfl
  | some c =>
    simp only [Option.bind_some]
    cases hx : c.content with
    | none => simp [restOf]
    | some x =>
      simp only [restOf]
      cases x with
      | par a rects correct => exact content_atoms ids a.cfg.content
      | image im b => rfl

theorem imName_small (n : Nat) : ((imName n).all fun c => decide (c.toNat < 256)) = true := by
  rw [List.all_eq_true]
  intro c hc
  unfold imName at hc
  rcases List.mem_append.1 hc with hc | hc
  · simp only [List.mem_cons, List.not_mem_nil, or_false] at hc
    rcases hc with rfl | rfl <;> decide
  · have := natStr_digit hc
    simp only [Char.isDigit, Bool.and_eq_true, decide_eq_true_eq] at this
    have h2 : c.toNat ≤ 57 := this.2
    simp only [decide_eq_true_eq]
    omega

/-- the resources of the pages are those of their dictionaries -/
def PagesFound (s : PdfD) (dicts : List (List (Bytes × PObj))) : Prop :=
  ∀ (i : Nat) pg, s.doc.pages[i]? = some pg → ∃ D, dicts[i]? = some D ∧ ∀ n, resource b!"XObject" (bytesOf (imName n)) D = dget (imName n) pg.xres

/-- what is seen of a piece is what its part has -/
theorem piece_seen {T : TextEnv} {s : PdfD} {dicts : List (List (Bytes × PObj))} (hf : PagesFound s dicts) {a : Option DocPart} {r : Painted} (h : PieceShows T s a r) :
    pieceSeen dicts r = (a.toList.flatMap fun p => leafPartAtoms p.leaf).flatMap (atomSeen fun n => (dget n s.images).getD 0) := by
  unfold pieceSeen eventSeen
  cases a with
  | none => rw [eventImages_mute h.2, eventWords, eventToks_mute none h.2]; rfl
  | some a =>
    simp only [Option.toList_some, List.flatMap_singleton]
    cases a with
    | par x y w ht text graphics used ids cfg lines =>
      obtain ⟨-, -, h1, h2, -⟩ := h
      rw [eventImages_plain h2, List.map_nil, List.append_nil, eventWords, h1.words]
      show (wordsOf (.sep :: lines.flatMap lineChars)).map Seen.word = ((wordsOf (lines.flatMap lineToks)).map LAtom.word).flatMap _
      rw [lines_atoms]
      rfl
    | image im x y w ht =>
      obtain ⟨-, gs, n, id, pg, h1, -, h3, h4, h5⟩ := h
      obtain ⟨D, d1, d2⟩ := hf _ _ h4
      rw [h1]
      simp only [eventWords, eventToks, eventImages, List.filterMap_cons, List.filterMap_nil, List.map_cons, List.map_nil, d1, Option.bind_some, d2, h5]
      show _ = [Seen.image (some ((dget im.name s.images).getD 0))]
      rw [h3]
      rfl

theorem pieces_seen {T : TextEnv} {s : PdfD} {dicts : List (List (Bytes × PObj))} (hf : PagesFound s dicts) {l : List (Option DocPart)} {rs : List Painted}
    (h : List.Forall₂ (PieceShows T s) l rs) :
    rs.flatMap (pieceSeen dicts) = (l.flatMap fun a => a.toList.flatMap fun p => leafPartAtoms p.leaf).flatMap (atomSeen fun n => (dget n s.images).getD 0) := by
  induction h with
  | nil => rfl
  | cons h _ ih => rw [List.flatMap_cons, List.flatMap_cons, List.flatMap_append, ih, piece_seen hf h]

theorem marks_atoms {σ : Type} (outs : List (FlowOut σ)) :
    ((outs.flatMap FlowOut.marks).flatMap fun a => a.toList.flatMap fun p => leafPartAtoms p.leaf) = (outs.flatMap FlowOut.parts).flatMap fun p => leafPartAtoms p.leaf := by
  induction outs with
  | nil => rfl
  | cons o outs ih =>
    rw [List.flatMap_cons, List.flatMap_append, ih, List.flatMap_cons, List.flatMap_append]
    congr 1
    simp [FlowOut.marks, List.flatMap_map]

/-- one atom after the other, with the same label -/
theorem labelled_flatMap {A A' : Type} (f : A → List A') (u : List ((Nat × Nat) × A)) :
    (u.flatMap fun e => (f e.2).map fun a => (e.1, a)).map Prod.snd = (u.map Prod.snd).flatMap f ∧
    ∀ i j, labelled (u.flatMap fun e => (f e.2).map fun a => (e.1, a)) i j = (labelled u i j).flatMap f := by
  constructor
  · induction u with
    | nil => rfl
    | cons e u ih => simp [ih, Function.comp_def]
  · intro i j
    induction u with
    | nil => rfl
    | cons e u ih =>
      have app : ∀ a b : List ((Nat × Nat) × A'), labelled (a ++ b) i j = labelled a i j ++ labelled b i j := by
        intro a b; simp [labelled]
      have one : labelled (e :: u) i j = labelled [e] i j ++ labelled u i j := by simp [labelled, List.filter_cons]; split <;> simp
      rw [List.flatMap_cons, app, one, List.flatMap_append, ih]
      congr 1
      by_cases he : e.1 = (i, j) <;> simp [labelled, he, Function.comp_def, List.filter_map]

theorem rows_flatMap {A A' : Type} (f : A → List A') {u : List ((Nat × Nat) × A)} (h : (u.map (·.1.1)).Pairwise (· ≤ ·)) :
    ((u.flatMap fun e => (f e.2).map fun a => (e.1, a)).map (·.1.1)).Pairwise (· ≤ ·) := by
  rw [List.pairwise_map] at h ⊢
  rw [List.pairwise_flatMap]
  constructor
  · intro e _
    rw [List.pairwise_map]
    exact List.pairwise_of_forall fun a b => le_refl _
  · refine List.Pairwise.imp ?_ h
    intro a b hab x hx y hy
    obtain ⟨_, -, rfl⟩ := List.mem_map.1 hx
    obtain ⟨_, -, rfl⟩ := List.mem_map.1 hy
    exact hab

/-- an atom of a box, as it is seen -/
def heldSeen (ids : Str → Nat) (images : Nat → PImg) : CAtom LAtom → List Seen
  | .text a => atomSeen ids a
  | .image n => imageSeen ids images n

theorem leafHeld_seen (ids : Str → Nat) (images : Nat → PImg) (l : DocLeaf) : (leafHeld l).flatMap (heldSeen ids images) = leafSeen ids l := by
  rw [leafHeld, List.flatMap_map]
  cases l with
  | par a rects correct => exact content_atoms ids a.cfg.content
  | image im b => rfl

/-- a part that shows something has something of its tag -/
theorem part_shows {A : Type} {images : Nat → PImg} (f : LAtom → List A) (p : TagPart DocPart) (h : (leafPartAtoms (tagDoc images p).leaf).flatMap f ≠ []) :
    natoms (fun p => leafPartAtoms p.leaf) (tagOf p) p ≠ [] := by
  cases p with
  | leaf p =>
    simp only [natoms, tagOf, if_true, ne_eq, List.map_eq_nil_iff]
    intro h'
    refine h ?_
    show (leafPartAtoms p.2.leaf).flatMap f = []
    rw [h']
    rfl
  | image n x y w h => simp [natoms, tagOf]

/-- what parts with tags show, tag by tag -/
theorem tags_seen (ids : Str → Nat) (images : Nat → PImg) (ps : List (TagPart DocPart)) :
    ∃ u : List (Nat × Seen), u.map Prod.snd = ((ps.map (tagDoc images)).flatMap fun p => leafPartAtoms p.leaf).flatMap (atomSeen ids) ∧
      (∀ k, (u.filter (·.1 = k)).map Prod.snd = (ps.flatMap (natoms (fun p => leafPartAtoms p.leaf) k)).flatMap (heldSeen ids images)) ∧
      ∀ before, PartsOrder (fun p => leafPartAtoms p.leaf) before ps → KeepsOrder before u := by
  refine ⟨ps.flatMap fun p => ((leafPartAtoms (tagDoc images p).leaf).flatMap (atomSeen ids)).map fun a => (tagOf p, a), ?_, ?_, fun before h => keeps_order h (part_shows _)⟩
  · induction ps with
    | nil => rfl
    | cons p ps ih => simp [ih, Function.comp_def]
  · intro k
    induction ps with
    | nil => rfl
    | cons p ps ih =>
      rw [List.flatMap_cons, List.filter_append, List.map_append, ih, List.flatMap_cons, List.flatMap_append]
      congr 1
      cases p with
      | leaf p =>
        obtain ⟨t, p⟩ := p
        by_cases ht : t = k
        · simp [tagOf, tagDoc, natoms, ht, List.filter_map, Function.comp_def, List.flatMap_map, heldSeen]
        · simp [tagOf, natoms, ht, List.filter_map, Function.comp_def]
      | image n x y w h =>
        by_cases ht : n = k
        · simp [tagOf, tagDoc, natoms, ht, List.filter_map, DocPart.leaf, leafPartAtoms, heldSeen, atomSeen, imageSeen]
        · simp [tagOf, natoms, ht, List.filter_map, Function.comp_def]

/-- the images of pieces have objects -/
theorem piece_images {T : TextEnv} {s : PdfD} {σ : Type} {outs : List (FlowOut σ)} {rs : List Painted} (h : List.Forall₂ (PieceShows T s) (outs.flatMap FlowOut.marks) rs)
    {im : PImg} (hm : LAtom.image im ∈ (outs.flatMap FlowOut.parts).flatMap fun p => leafPartAtoms p.leaf) : (dget im.name s.images).isSome := by
  obtain ⟨q, hq, hq'⟩ := List.mem_flatMap.1 hm
  obtain ⟨o, ho, hqo⟩ := List.mem_flatMap.1 hq
  have hq2 : some q ∈ outs.flatMap FlowOut.marks := List.mem_flatMap.2 ⟨o, ho, by simp [FlowOut.marks, hqo]⟩
  obtain ⟨n, hn, hn'⟩ := List.getElem_of_mem hq2
  have hlen := h.length_eq
  have h5 := (List.forall₂_iff_get.1 h).2 n hn (by omega)
  simp only [List.get_eq_getElem, hn'] at h5
  cases q with
  | par => simp [DocPart.leaf, leafPartAtoms] at hq'
  | image im' x y w ht =>
    simp only [DocPart.leaf, leafPartAtoms, List.mem_singleton, LAtom.image.injEq] at hq'
    subst hq'
    obtain ⟨-, gs, n, id, pg, -, -, h3, -⟩ := h5
    rw [h3]
    rfl

theorem held_images {images : Nat → PImg} {tot : Nat → List (CAtom LAtom)} {ps : List (TagPart DocPart)}
    (h : ∀ k, ps.flatMap (natoms (fun p => leafPartAtoms p.leaf) k) = tot k) {im : PImg} (hi : heldImage images tot im) :
    LAtom.image im ∈ (ps.map (tagDoc images)).flatMap fun p => leafPartAtoms p.leaf := by
  obtain ⟨k, a, ha, hm⟩ := hi
  rw [← h k] at ha
  obtain ⟨p, hp, ha⟩ := List.mem_flatMap.1 ha
  refine List.mem_flatMap.2 ⟨_, List.mem_map_of_mem hp, ?_⟩
  cases p with
  | leaf p =>
    obtain ⟨t, p⟩ := p
    simp only [natoms] at ha
    split at ha
    · obtain ⟨x, hx, rfl⟩ := List.mem_map.1 ha
      cases x with
      | word w => exact hm.elim
      | image q =>
        have : im = q := hm
        subst this
        exact hx
    · cases ha
  | image n x y w ht =>
    simp only [natoms] at ha
    split at ha
    · simp only [List.mem_singleton] at ha
      subst ha
      have : im = images n := hm
      subst this
      simp [tagDoc, DocPart.leaf, leafPartAtoms]
    · cases ha

/-- what was put on the pages is read in the file -/
theorem call_read {T : TextEnv} {refOf : Str → Str → Str} {fuel : Nat} {Ws : List Rat} {s : PdfD} {dicts : List (List (Bytes × PObj))} (hf : PagesFound s dicts) {a : AddOp}
    (ha : a.Ok T refOf Ws) {rs : List Painted} (h : CallDrawn T fuel Ws s a rs) :
    CallRead (fun n => (dget n s.images).getD 0) dicts a rs ∧ ∀ im, a.HasImage im → (dget im.name s.images).isSome := by
  cases a with
  | page k => exact ⟨h, fun _ h => h.elim⟩
  | text a =>
    refine ⟨⟨h.1, ?_⟩, fun _ h => h.elim⟩
    rw [List.flatMap_eq_nil_iff]
    exact fun r hr => eventImages_plain (h.2 r hr)
  | image im x y w ht =>
    obtain ⟨r, X, Y, W, H, rfl, h2⟩ := h
    constructor
    · show [r].flatMap (pieceSeen dicts) = _
      rw [List.flatMap_singleton, piece_seen hf h2]
      rfl
    · rintro q rfl
      obtain ⟨-, gs, n, id, pg, -, -, h3, -⟩ := h2
      rw [h3]
      rfl
  | table t =>
    obtain ⟨rects, outs, h1, h2, h3, h4⟩ := h
    obtain ⟨u, u1, u2, u3⟩ := table_atoms (L := fun _ => True) ha (fun _ _ _ _ _ _ _ => trivial) 0 0 0 0 h1 h2 h3
    obtain ⟨v1, v2⟩ := labelled_flatMap (atomSeen fun n => (dget n s.images).getD 0) u
    constructor
    · refine ⟨_, v1.trans ?_, ?_, fun hr => rows_flatMap _ (u3 hr)⟩
      · rw [u1, pieces_seen hf h4, marks_atoms]
      · intro i j
        rw [v2, u2, cell_atoms]
    · rintro im ⟨i, j, c, b, hc, hx⟩
      have e : labelled u i j = [.image im] := by
        rw [u2]
        simp [cellAtoms, hc, hx, restOf, leafOf, leafAtoms]
      have hm : LAtom.image im ∈ u.map Prod.snd := by
        have : LAtom.image im ∈ labelled u i j := by rw [e]; simp
        unfold labelled at this
        obtain ⟨x, hx, hx'⟩ := List.mem_map.1 this
        exact List.mem_map.2 ⟨x, List.mem_of_mem_filter hx, hx'⟩
      rw [u1] at hm
      exact piece_images h4 hm
  | grid g =>
    obtain ⟨rects, outs, h1, h2, h3, h4⟩ := h
    obtain ⟨ps, e1, e2, e3⟩ := grid_held ha h1 h2 h3
    obtain ⟨u, u1, u2, u3⟩ := tags_seen (fun n => (dget n s.images).getD 0) g.images ps
    constructor
    · refine ⟨u, ?_, fun k => ?_, u3 _ e3⟩
      · rw [u1, pieces_seen hf h4, marks_atoms, e1]
      · rw [u2, e2, ← gridHeld_flatMap]
        congr 1
        funext l
        exact leafHeld_seen _ _ l
    · intro im hi
      refine piece_images h4 (im := im) ?_
      rw [e1]
      exact held_images e2 ((grid_images g im).2 hi)
  | content b =>
    obtain ⟨rects, outs, h1, h2, h3, h4⟩ := h
    obtain ⟨ps, e1, e2, e3⟩ := content_held ha h1 h2 h3
    obtain ⟨u, u1, u2, u3⟩ := tags_seen (fun n => (dget n s.images).getD 0) b.images ps
    constructor
    · refine ⟨u, ?_, fun k => ?_, u3 _ e3⟩
      · rw [u1, pieces_seen hf h4, marks_atoms, e1]
      · rw [u2, e2, ← boxHeld_flatMap]
        congr 1
        funext l
        exact leafHeld_seen _ _ l
    · intro im hi
      refine piece_images h4 (im := im) ?_
      rw [e1]
      exact held_images e2 ((box_images b im).2 hi)

theorem forall₂_choose {α β : Type} {P : α → β → Prop} : ∀ {l : List α}, (∀ a ∈ l, ∃ b, P a b) → ∃ l', List.Forall₂ P l l' := by
  intro l
  induction l with
  | nil => intro _; exact ⟨[], .nil⟩
  | cons a l ih =>
    intro h
    obtain ⟨b, hb⟩ := h a (by simp)
    obtain ⟨l', hl⟩ := ih fun a ha => h a (by simp [ha])
    exact ⟨b :: l', .cons hb hl⟩

/-- **C80.** Make a document with any sequence of calls of `add_page`, `text`, `image`, `table` and `content`, with paragraphs in the fonts of the standard
and without lists, and tables and content boxes in each other. If every value in it can be written, its file opens in a reader, whose pages show exactly the
pieces of the calls, one after the other; the words of the pieces of a paragraph are exactly those given; an image is shown once; the words and
images of the pieces of a table of paragraphs and images are exactly those of its cells, each cell with its own in order; those of any table or content box are
exactly those of the paragraphs and images in it, at any depth, each with its own in order; and the images shown have the objects given. Partial: see DESIGN.md. -/
theorem C80_document_partial {E : PdfEnv} {T : TextEnv} (hT : T.Ok) {refOf : Str → Str → Str} {k : Sheet} {fuel : Nat} {version : Str} {l : List AddOp}
    {p p' : FProc} {s : PdfD} (hl : ∀ a ∈ l, a.Ok T refOf (docWidths k l)) (him : ImagesOk l) (h : madeDoc E T k fuel version l p = .ok (p', s))
    {level : Int} {b : Base} (hb : s.doc.withTrees E.num level = .ok b) (hread : ∀ o ∈ b.content, readable o.value = true)
    (flate : Bytes → Bytes) (u1 u2 : Bytes) (hok : (b.output flate u1 u2).err = none) (hsmall : (b.output flate u1 u2).written.length < 10 ^ 10)
    (hu1 : 60 ∉ u1 ∧ 62 ∉ u1) (hu2 : 60 ∉ u2 ∧ 62 ∉ u2) :
    ∃ R ids dicts pages shown, openFile (b.output flate u1 u2).written = some R ∧ DocRead R flate l ids dicts pages shown := by
  unfold madeDoc at h
  split at h
  · cases h
  · rename_i r hn
    obtain ⟨p0, s0⟩ := r
    obtain ⟨rss, h1, h2, -⟩ := puts_drawn (L := fun im => ∃ a ∈ l, a.HasImage im) hT (Ws := docWidths k l) (by simp [docWidths]) l hl
      (fun a ha im hi => ⟨a, ha, hi⟩) (by
        intro k' hk'
        exact List.mem_cons_of_mem _ (List.mem_filterMap.2 ⟨_, hk', rfl⟩)) (drawn_new hn) h
    rw [List.nil_append] at h2
    obtain ⟨R, N, r1, r2, r3, -⟩ := document_read (E := E) h2.out hb hread flate u1 u2 hok hsmall hu1 hu2
    obtain ⟨dicts, hd⟩ := forall₂_choose (P := fun pg D => R.dict pg.objId = some D ∧
        (∀ inflate, (∀ x, inflate (flate x) = x) → R.contents inflate D = some (pg.stream.map Prod.snd).flatten) ∧
        ∀ n, resource b!"XObject" (bytesOf (imName n)) D = dget (imName n) pg.xres) (l := s.doc.pages) (by
      intro pg hpg
      obtain ⟨D, d1, -, d3, d4, -⟩ := (r3 pg hpg).shown
      exact ⟨D, d1, d3, fun n => (d4 (imName n) (imName_small n)).2⟩)
    have hlen := hd.length_eq
    have hget := (List.forall₂_iff_get.1 hd).2
    have hf : PagesFound s dicts := by
      intro i pg hi
      obtain ⟨hlt, rfl⟩ := List.getElem?_eq_some_iff.1 hi
      exact ⟨dicts[i], List.getElem?_eq_getElem (by omega), (hget i hlt (by omega)).2.2⟩
    have hcalls : List.Forall₂ (fun a rs => CallRead (fun n => (dget n s.images).getD 0) dicts a rs ∧ ∀ im, a.HasImage im → (dget im.name s.images).isSome) l rss := by
      have := h1
      clear h1 h2 him h
      generalize docWidths k l = Ws at hl this
      induction this with
      | nil => exact .nil
      | cons h _ ih => exact .cons (call_read hf (hl _ (by simp)) h) (ih fun a ha => hl a (by simp [ha]))
    refine ⟨R, fun n => (dget n s.images).getD 0, dicts, (List.range s.doc.pages.length).map (seenOn rss.flatten), rss, r1,
      ⟨⟨N, _, r2, ?_, ?_⟩, ?_, by simpa using h2.bound, h2.sorted, hcalls.imp fun _ _ h => h.1, ?_⟩⟩
    · rw [List.forall₂_map_left_iff]
      exact hd.imp fun _ _ h => h.1
    · rw [List.forall₂_iff_get]
      refine ⟨by simp [hlen], ?_⟩
      intro i hi1 hi2 inflate hinf
      have hi : i < s.doc.pages.length := by omega
      obtain ⟨⟨-, str, ops, gs, e1, e2, -, e3⟩, -⟩ := h2.page i _ (List.getElem?_eq_getElem hi)
      have d3 := (hget i hi hi1).2.1
      simp only [List.get_eq_getElem, List.getElem_map, List.getElem_range] at d3 ⊢
      rw [PdfFile.pageEvents, d3 inflate hinf, Option.bind_some, e1, execStream, e2.ops]
      simp only [e3, Option.map_some]
    · intro i evs hi
      rw [List.getElem?_map] at hi
      cases hj : (List.range s.doc.pages.length)[i]? with
      | none => rw [hj] at hi; cases hi
      | some j =>
        rw [hj] at hi
        obtain ⟨hlt, e⟩ := List.getElem?_eq_some_iff.1 hj
        rw [List.getElem_range] at e
        subst e
        simp only [Option.map_some, Option.some.injEq] at hi
        rw [← hi]
        rfl
    · intro a ha im hi
      obtain ⟨n, hn, rfl⟩ := List.getElem_of_mem ha
      have := ((List.forall₂_iff_get.1 hcalls).2 n hn (by have := hcalls.length_eq; omega)).2 im hi
      obtain ⟨id, hid⟩ := Option.isSome_iff_exists.1 this
      obtain ⟨im', ⟨a', ha', hi'⟩, i2, i3⟩ := h2.imgs _ _ hid
      have e := him.same _ ha' _ ha im' im hi' hi i2
      obtain ⟨o1, o2, o3⟩ := him.own _ ha im hi
      rw [e] at i3
      obtain ⟨D, d1, d2, d3⟩ := object_read (E := E) h2.out hb hread flate u1 u2 hok hsmall hu1 hu2 r1 i3 o1 o2 o3
      rw [show ((dget im.name s.images).getD 0) = id by rw [hid]; rfl]
      exact ⟨D, d1, d2.look, d3⟩

/-! ### An example -/

def ex80Par (s : Str) : TextArgs := ⟨⟨[.text (splitWords s) (samplePart [] none).look none], 0, c!"l", 1, none⟩, none⟩
def ex80Image : PImg := ⟨c!"im", 20, 10, [(.str c!"Type", .bytes b!"/XObject"), (.str c!"Width", .int 20), (.str c!"__skip_filter__", .bool true),
  (.str c!"__stream__", .bytes b!"stream endobj")]⟩
def ex80Style : CellStyle (PDFColor Rat) := ⟨1, 1, 1, 1, some ⟨some [1], false⟩⟩
def ex80Cell (l : DocLeaf) (cols : Nat) : Option (Cell DocLeaf (PDFColor Rat)) := some ⟨some l, cols, 0, ex80Style⟩

/-- two rows, the second of which is a cell of two columns -/
def ex80Table : DocTable :=
  ⟨[[ex80Cell (.par (ex80Par c!"one (two) three") [] true) 0, ex80Cell (.image ex80Image false) 0], [ex80Cell (.par (ex80Par c!"four five six") [] true) 1, none]], 2,
    [1/2, 1/2], fun _ _ _ => ⟨1, ⟨some [1], true⟩, c!"solid"⟩, fun _ _ => none, ex80Style, .par ⟨⟨[], 0, c!"l", 1, none⟩, none⟩ [] true, docExec ex77T⟩

def ex80Sheet : Sheet := ⟨100, 50, 5, 5, 5, 5⟩

/-- a paragraph, an image, and a table that goes on on further pages -/
def ex80Ops : List AddOp := [.page ex80Sheet, .text (ex80Par c!"a b "), .image ex80Image none none (some 20) none, .table ex80Table, .text (ex80Par c!"c ")]

def ex80 : Option (PdfD × Base) :=
  match madeDoc ex77E ex77T ex80Sheet 10 c!"1.5" ex80Ops ⟨[], []⟩ with
  | .error _ => none
  | .ok r => match r.2.doc.withTrees ex77E.num 1 with
    | .error _ => none
    | .ok b => some (r.2, b)

def ex80File : Option PdfFile := ex80.bind fun r => openFile (r.2.output id b!"00" b!"11").written

/-- The hypotheses of the theorem are met by it, ... -/
example : (ex80.map fun r => r.2.content.all (fun o => readable o.value) && ((r.2.output id b!"00" b!"11").err = none) &&
      decide ((r.2.output id b!"00" b!"11").written.length < 10 ^ 10)) = some true := by decide +kernel

theorem ex80_readable (s : Str) : Readable ex77T.fmt sampleRef (ex80Par s).cfg := by
  have hx : ∀ x ∈ contentLooks (ex80Par s).cfg.content, x = (samplePart [] none).look := by
    intro x hx
    simpa [ex80Par, contentLooks] using hx
  refine ⟨⟨?_, (by intro lc h; cases h), (by intro lc h; cases h)⟩, ?_, rfl⟩
  · intro x h
    rw [hx x h]
    exact sampleSt_ok
  · intro x h
    rw [hx x h]
    exact ⟨⟨fun h => by simp [samplePart] at h, fun h => by simp [samplePart] at h⟩, rfl⟩

theorem ex80_cells {i j : Nat} {c : Cell DocLeaf (PDFColor Rat)} (h : cellAt ex80Table.content i j = some c) :
    (i, j, c) = (0, 0, ⟨some (.par (ex80Par c!"one (two) three") [] true), 0, 0, ex80Style⟩) ∨ (i, j, c) = (0, 1, ⟨some (.image ex80Image false), 0, 0, ex80Style⟩) ∨
    (i, j, c) = (1, 0, ⟨some (.par (ex80Par c!"four five six") [] true), 1, 0, ex80Style⟩) := by
  rcases i with _ | _ | i
  · rcases j with _ | _ | j
    · left; simpa [cellAt, ex80Table, ex80Cell] using h.symm
    · right; left; simpa [cellAt, ex80Table, ex80Cell] using h.symm
    · simp [cellAt, ex80Table] at h
  · rcases j with _ | _ | j
    · right; right; simpa [cellAt, ex80Table, ex80Cell] using h.symm
    · simp [cellAt, ex80Table] at h
    · simp [cellAt, ex80Table] at h
  · simp [cellAt, ex80Table] at h

theorem ex80_table : DocTableOk ex77T sampleRef (docWidths ex80Sheet ex80Ops) ex80Table where
  exec := rfl
  spans := by
    intro i j c hc i' j' h1 h2 h3 h4 h5
    rcases ex80_cells hc with e | e | e <;> cases e
    · simp only at h2 h4
      exact absurd (by simp only [Prod.mk.injEq]; constructor <;> omega) h5
    · simp only at h2 h4
      exact absurd (by simp only [Prod.mk.injEq]; constructor <;> omega) h5
    · obtain rfl : i' = 1 := by simp only at h2; omega
      simp only at h4
      obtain rfl | rfl : j' = 0 ∨ j' = 1 := by omega
      · exact absurd rfl h5
      · rfl
  styles := ⟨fun _ _ _ => by norm_num [ex80Table], by norm_num [ex80Table, ex80Style], by
    intro i j c hc
    rcases ex80_cells hc with e | e | e <;> cases e <;> norm_num [ex80Style]⟩
  cols := by decide
  first := by
    intro j c hc
    rcases ex80_cells hc with e | e | e <;> cases e <;> rfl
  fresh := by
    intro i j c x hc hx
    rcases ex80_cells hc with e | e | e <;> cases e <;> cases hx <;> rfl
  boxes := by
    intro i j c x hc hx W hW i'
    simp only [docWidths, ex80Ops, List.filterMap_cons, List.filterMap_nil, List.mem_cons, List.not_mem_nil, or_false, or_self] at hW
    rcases ex80_cells hc with e | e | e <;> cases e <;> cases hx
    · show (0 : Rat) < 1; norm_num
    · refine ⟨by decide, by decide, ?_⟩
      subst hW
      norm_num [boxWidth, ex80Table, cellWidth, ex80Sheet, ex80Style]
    · show (0 : Rat) < 1; norm_num
  texts := by
    intro i j c a rects correct hc hx
    rcases ex80_cells hc with e | e | e <;> cases e <;> cases hx <;> exact ex80_readable _
  blank := ⟨_, _, rfl, by norm_num, rfl, ⟨fun x h => by simp [contentLooks] at h, (by intro lc h; cases h), (by intro lc h; cases h)⟩,
    fun x h => by simp [contentLooks] at h, rfl⟩

example : ∀ a ∈ ex80Ops, a.Ok ex77T sampleRef (docWidths ex80Sheet ex80Ops) := by
  intro a ha
  simp only [ex80Ops, List.mem_cons, List.not_mem_nil, or_false] at ha
  rcases ha with rfl | rfl | rfl | rfl | rfl
  · trivial
  · exact ex80_readable _
  · trivial
  · exact ex80_table
  · exact ex80_readable _

example : ImagesOk ex80Ops := by
  have key : ∀ a ∈ ex80Ops, ∀ im, a.HasImage im → im = ex80Image := by
    intro a ha im hi
    simp only [ex80Ops, List.mem_cons, List.not_mem_nil, or_false] at ha
    rcases ha with rfl | rfl | rfl | rfl | rfl
    · exact hi.elim
    · exact hi.elim
    · exact hi
    · obtain ⟨i, j, c, b, hc, hx⟩ := hi
      rcases ex80_cells hc with e | e | e <;> cases e <;> cases hx
      rfl
    · exact hi.elim
  constructor
  · intro a ha b hb im im' hi hi' _
    rw [key a ha im hi, key b hb im' hi']
  · intro a ha im hi
    rw [key a ha im hi]
    refine ⟨?_, ?_, ?_⟩
    · intro e
      have := congrArg (fun d => (dget (.str c!"Width") d).isSome) e
      revert this
      decide
    · intro e
      have := congrArg (fun d => (dget (.str c!"Width") d).isSome) e
      revert this
      decide
    · intro m e
      have := congrArg (fun d => (dget (.str c!"Width") d).isSome) e
      rw [show (dget (.str c!"Width") (freshPage m)).isSome = false from rfl] at this
      revert this
      decide

/-- ... and the file read, by computation. -/
example : (ex80File.bind fun R => (R.pages 3).map fun ids => ids.map fun n => (R.dict n).bind fun D => (R.pageEvents id D).map fun e =>
      (eventWords e, (eventImages e).map fun n => resource b!"XObject" n D)) =
    some [some ([c!"a", c!"b", c!"one"], [some 5]), some ([c!"(two)", c!"three", c!"four"], [some 5]), some ([c!"five", c!"six", c!"c"], [])] := by decide +kernel

example : (ex80File.bind fun R => (R.object 5).bind Prod.snd) = some b!"stream endobj" := by decide +kernel

/-! ### An example with things in each other -/

def ex80Wide : PImg := ⟨c!"wide", 40, 10, [(.str c!"Type", .bytes b!"/XObject"), (.str c!"Width", .int 40)]⟩
def ex80Empty : DocLeaf := .par ⟨⟨[], 0, c!"l", 1, none⟩, none⟩ [] true

/-- a paragraph or image at every depth but 0 -/
def ex80Leaf (n tag : Nat) (l : DocLeaf) : DocNest (n + 1) := Node.leaf tag l

def ex80Data (n : Nat) (a b : DocNest (n + 1)) : TabData (DocNest (n + 1)) LineLook (PDFColor Rat) :=
  ⟨[[some ⟨some a, 0, 0, ex80Style⟩, some ⟨some b, 0, 0, ex80Style⟩]], 2, [1/2, 1/2], fun _ _ _ => ⟨1, ⟨some [1], true⟩, c!"solid"⟩, fun _ _ => none, ex80Style, ex80Leaf n 0 ex80Empty⟩

def ex80CSt : CStyle := ⟨0, 3, 0, 0, none, false, .normal⟩

/-- a paragraph, an image, and a table with a paragraph and an image -/
def ex80Els : List (CEl (DocNest 2)) :=
  [.leaf (ex80Leaf 1 1 (.par (ex80Par c!"one two") [] true)) ex80CSt, .image ⟨2, 40, 10, 0, ex80CSt⟩,
    .leaf (Node.table (ex80Data 0 (ex80Leaf 0 3 (.par (ex80Par c!"three four five") [] true)) (ex80Leaf 0 4 (.image ex80Image false))) []) ex80CSt]

/-- a table with a box and a paragraph -/
def ex80Grid : DocGrid := ⟨3, fun _ => ex80Wide, ex80Data 2 (Node.box none ex80Els []) (ex80Leaf 2 5 (.par (ex80Par c!"beside") [] true))⟩

def ex80Box : DocBox := ⟨2, fun _ => ex80Wide, none, ex80Els⟩

def ex80Ops2 : List AddOp := [.page ex80Sheet, .content ex80Box, .grid ex80Grid]

def ex80File2 : Option PdfFile :=
  match madeDoc ex77E ex77T ex80Sheet 40 c!"1.5" ex80Ops2 ⟨[], []⟩ with
  | .error _ => none
  | .ok r => match r.2.doc.withTrees ex77E.num 1 with
    | .error _ => none
    | .ok b => openFile (b.output id b!"00" b!"11").written

theorem ex80_fit (n : Nat) {a b : DocNest (n + 1)} {Ws : List Rat} (ha : (docNest ex77T sampleRef (n + 1)).fresh a) (hb : (docNest ex77T sampleRef (n + 1)).fresh b)
    (fa : ∀ W ∈ Ws, (docNest ex77T sampleRef (n + 1)).fit a (W * (1 / 2) - 3)) (fb : ∀ W ∈ Ws, (docNest ex77T sampleRef (n + 1)).fit b (W * (1 / 2) - 3))
    (ht : ((docNest ex77T sampleRef (n + 1)).tags a ++ (docNest ex77T sampleRef (n + 1)).tags b).Nodup) :
    TableFit (docNest ex77T sampleRef (n + 1)) (ex80Data n a b) Ws := by
  have cells : ∀ i j c, cellAt (ex80Data n a b).content i j = some c → i = 0 ∧ (j = 0 ∧ c = ⟨some a, 0, 0, ex80Style⟩ ∨ j = 1 ∧ c = ⟨some b, 0, 0, ex80Style⟩) := by
    intro i j c h
    rcases i with _ | i
    · rcases j with _ | _ | j
      · exact ⟨rfl, Or.inl ⟨rfl, by simpa [cellAt, ex80Data] using h.symm⟩⟩
      · exact ⟨rfl, Or.inr ⟨rfl, by simpa [cellAt, ex80Data] using h.symm⟩⟩
      · simp [cellAt, ex80Data] at h
    · simp [cellAt, ex80Data] at h
  refine ⟨?_, ?_, fun _ _ _ => by norm_num [ex80Data], by norm_num [ex80Data, ex80Style], ?_, show 2 ≠ 0 by decide, ?_, ?_, ?_, ?_⟩
  · intro i j c hc i' j' h1 h2 h3 h4 h5
    rcases cells _ _ _ hc with ⟨-, ⟨-, rfl⟩ | ⟨-, rfl⟩⟩ <;> exact absurd (by rw [Prod.mk.injEq]; constructor <;> (simp only at h2 h4; omega)) h5
  · intro i j c hc
    rcases cells _ _ _ hc with ⟨-, ⟨-, rfl⟩ | ⟨-, rfl⟩⟩ <;> rfl
  · intro i j c hc
    rcases cells _ _ _ hc with ⟨-, ⟨-, rfl⟩ | ⟨-, rfl⟩⟩ <;> norm_num [ex80Style]
  · exact ⟨rfl, by norm_num, rfl, ⟨fun x h => by simp [contentLooks] at h, (by intro lc h; cases h), (by intro lc h; cases h)⟩, fun x h => by simp [contentLooks] at h, rfl⟩
  · intro i j c x hc hx
    rcases cells _ _ _ hc with ⟨-, ⟨-, rfl⟩ | ⟨-, rfl⟩⟩ <;> cases hx
    · exact ha
    · exact hb
  · intro i j c x hc hx W hW i'
    rcases cells _ _ _ hc with ⟨-, ⟨rfl, rfl⟩ | ⟨rfl, rfl⟩⟩ <;> cases hx
    · have : innerWidth (ex80Data n a b) W i' 0 0 ex80Style = W * (1 / 2) - 3 := by
        norm_num [innerWidth, ex80Data, cellWidth, ex80Style]
        ring
      rw [show innerWidth _ _ _ _ _ _ = W * (1 / 2) - 3 from this]
      exact fa W hW
    · have : innerWidth (ex80Data n a b) W i' 1 0 ex80Style = W * (1 / 2) - 3 := by
        norm_num [innerWidth, ex80Data, cellWidth, ex80Style]
        ring
      rw [show innerWidth _ _ _ _ _ _ = W * (1 / 2) - 3 from this]
      exact fb W hW
  · simpa [NSpec.tableTags, ex80Data, restOf] using ht

theorem ex80_par (n tag : Nat) (s : Str) (w : Rat) : (docNest ex77T sampleRef (n + 1)).fit (ex80Leaf n tag (.par (ex80Par s) [] true)) w :=
  ⟨show (0 : Rat) < 1 by norm_num, ex80_readable s⟩

theorem ex80_els {Ws : List Rat} (hW : ∀ W ∈ Ws, 20 < W) : BoxFit (docNest ex77T sampleRef 2) ex80Els Ws := by
  refine ⟨?_, ?_, ?_, by decide⟩
  · intro e he
    simp only [ex80Els, List.mem_cons, List.not_mem_nil, or_false] at he
    rcases he with rfl | rfl | rfl
    · norm_num [ElTidy, ex80CSt]
    · norm_num [ElTidy, ex80CSt]
      exact ⟨fun m (h : none = some m) => absurd h (by simp), fun W h => lt_trans (by norm_num) (hW W h)⟩
    · norm_num [ElTidy, ex80CSt]
  · intro c st he
    simp only [ex80Els, List.mem_cons, List.not_mem_nil, or_false, CEl.leaf.injEq, reduceCtorEq, false_or] at he
    rcases he with ⟨rfl, rfl⟩ | ⟨rfl, rfl⟩ <;> rfl
  · intro c st he W hm
    simp only [ex80Els, List.mem_cons, List.not_mem_nil, or_false, CEl.leaf.injEq, reduceCtorEq, false_or] at he
    rcases he with ⟨rfl, rfl⟩ | ⟨rfl, rfl⟩
    · exact ex80_par _ _ _ _
    · refine ex80_fit 0 rfl rfl (fun _ _ => ex80_par _ _ _ _) ?_ (by decide)
      intro W' h
      simp only [List.map_nil, List.mem_singleton] at h
      subst h
      refine ⟨⟨by decide, by decide, ?_⟩, trivial⟩
      have := hW W hm
      norm_num [ex80CSt]
      linarith

/-- the theorem applies to it, ... -/
example : ∀ a ∈ ex80Ops2, a.Ok ex77T sampleRef (docWidths ex80Sheet ex80Ops2) := by
  have hw : ∀ W ∈ docWidths ex80Sheet ex80Ops2, W = 90 := by
    intro W hW
    simp only [docWidths, ex80Ops2, List.filterMap_cons, List.filterMap_nil, List.mem_cons, List.not_mem_nil, or_false, or_self] at hW
    rw [hW]
    norm_num [ex80Sheet]
  intro a ha
  rw [ex80Ops2] at ha
  simp only [List.mem_cons, List.not_mem_nil, or_false] at ha
  rcases ha with rfl | rfl | rfl
  · trivial
  · exact ex80_els fun W h => by rw [hw W h]; norm_num
  · refine ex80_fit 2 rfl rfl ?_ (fun _ _ => ex80_par _ _ _ _) (by decide)
    intro W h
    refine ex80_els ?_
    intro W' h'
    simp only [List.map_nil, List.mem_singleton] at h'
    rw [h', hw W h]
    norm_num

/-- ... and the file read, by computation. -/
example : (ex80File2.bind fun R => (R.pages 3).map fun ids => ids.map fun n => (R.dict n).bind fun D => (R.pageEvents id D).map fun e =>
      (eventWords e, (eventImages e).map fun n => resource b!"XObject" n D)) =
    some [some ([c!"one", c!"two"], [some 5]), some ([c!"three", c!"four", c!"five"], [some 8]), some ([c!"one", c!"two", c!"beside"], [some 5]),
      some ([c!"three", c!"four", c!"five"], [some 8])] := by decide +kernel

/-- In the box the paragraph comes before what is in the table, and the image before it too, as it does not flow; in the table of two columns the box in the first
cell has the same order in it, but there is no order between its cells. -/
example : boxBefore ex80Box 1 3 ∧ boxBefore ex80Box 2 4 ∧ gridBefore ex80Grid 1 3 := by
  have h : elsBefore (nestTags 2) (nestBefore 1 3 2) ex80Els 1 3 := Or.inl ⟨0, 2, _, _, by decide, rfl, rfl, rfl, List.mem_cons_self, List.mem_cons_self⟩
  refine ⟨h, Or.inl ⟨1, 2, _, _, by decide, rfl, rfl, rfl, List.mem_cons_self, List.mem_cons_of_mem _ List.mem_cons_self⟩, Or.inr ⟨0, 0, _, _, rfl, rfl, h⟩⟩

example : ¬ gridBefore ex80Grid 1 5 := by
  rintro (⟨i, i', j, j', c, c', hlt, h1, h2, -⟩ | ⟨i, j, c, x, hc, hx, h⟩)
  · obtain ⟨row, r1, -⟩ := cell_mem (tags := nestTags 3) h2
    have : i' < 1 := (List.getElem?_eq_some_iff.1 r1).1
    omega
  · have : 5 ∈ nestTags 3 x := (nestBefore_tags 3 x h).2
    obtain ⟨row, r1, r2⟩ := cell_mem (tags := nestTags 3) hc
    have hi : i < 1 := (List.getElem?_eq_some_iff.1 r1).1
    have hi : i = 0 := by omega
    subst hi
    cases r1
    have hj : j < 2 := (List.getElem?_eq_some_iff.1 r2).1
    have : j = 0 ∨ j = 1 := by omega
    rcases this with rfl | rfl
    · cases r2
      cases hx
      revert this
      decide
    · cases r2
      cases hx
      exact h

end Verif
