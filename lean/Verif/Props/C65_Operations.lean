import Verif.Lemmas.DocOps
import Verif.Props.C65_Document
import Verif.Props.C46_C47_Outline
/-! C65: what a reader finds in the file of a document, from the operations that made the document. -/
namespace Verif
open Spec

/-- the link a reader finds is the one asked for -/
def LinkMeets (num : Rat → Obj) (q : List Rat × Action) (l : Link) : Prop :=
  meaningList (q.1.map num) = some l.rect ∧ l.action = q.2

theorem forall₂_flatMap {α β γ δ : Type} {R : β → γ → Prop} {S : δ → γ → Prop} {f : α → List β} {g : α → List δ} :
    ∀ (l : List α) (ls : List γ), (∀ a ∈ l, ∀ ls, List.Forall₂ R (f a) ls → List.Forall₂ S (g a) ls) →
    List.Forall₂ R (l.flatMap f) ls → List.Forall₂ S (l.flatMap g) ls := by
  intro l
  induction l with
  | nil => intro ls _ h; simp only [List.flatMap_nil] at h ⊢; cases h; exact .nil
  | cons a l ih =>
    intro ls hf h
    simp only [List.flatMap_cons] at h ⊢
    have h1 := List.forall₂_take (f a).length h
    have h2 := List.forall₂_drop (f a).length h
    rw [List.take_left] at h1
    rw [List.drop_left] at h2
    rw [← List.take_append_drop (f a).length ls]
    exact List.rel_append (hf a (by simp) _ h1) (ih _ (fun b hb => hf b (by simp [hb])) h2)

theorem links_meet {num : Rat → Obj} {rnd : Rat → Rat} {s : PdfT} {puts : List Put} (hi : LinkInv rnd s puts) {ls : List Link}
    {i : Nat} (h : List.Forall₂ (LinkOf num s) (pageAnnots rnd s.action i puts) ls) :
    List.Forall₂ (LinkMeets num) (linksOn rnd i (puts.map fun p => ⟨p.page, p.x, p.y, p.ids⟩)) ls := by
  unfold linksOn
  rw [List.filter_map, List.flatMap_map]
  refine forall₂_flatMap (f := fun p => p.ids.flatMap (idAnnots rnd s.action p)) _ _ ?_ h
  intro p hp ls h
  refine forall₂_flatMap _ _ ?_ h
  intro id hid ls h
  have hp := (List.mem_filter.1 hp).1
  unfold idAnnots at h
  unfold idLinks
  cases hk : idKind id.1 with
  | ref name =>
    rw [hk] at h
    simp only at h ⊢
    rw [List.forall₂_map_left_iff] at h ⊢
    exact h.imp fun r l hl => hl
  | uri link =>
    rw [hk] at h
    simp only at h ⊢
    rw [List.forall₂_map_left_iff] at h ⊢
    cases hr : id.2 with
    | nil => rw [hr] at h; cases h; exact .nil
    | cons r0 rs =>
      obtain ⟨n, hn⟩ := hi.links link (by
        refine List.mem_flatMap.2 ⟨p, hp, List.mem_filterMap.2 ⟨id, hid, ?_⟩⟩
        rw [hk, hr])
      rw [← hr]
      refine h.imp fun r l hl => ?_
      obtain ⟨h1, u, h2, h3⟩ := hl
      refine ⟨h1, ?_⟩
      have e : s.action link = n := by simp [PdfT.action, hn]
      rw [e] at h2
      have a1 := hi.uris _ _ h2
      rw [hi.uris _ _ hn] at a1
      simp only [actionDict, Option.some.injEq, List.cons.injEq, Prod.mk.injEq, true_and, and_true, Obj.str.injEq] at a1
      rw [h3, a1]
  | label name => rw [hk] at h; cases h; exact .nil
  | other => rw [hk] at h; cases h; exact .nil

/-- the places of a label, in the document and as asked for -/
theorem spots_meet {rnd : Rat → Rat} {width : Nat → Rat} {puts : List Put} (hw : ∀ p ∈ puts, width p.page = p.width) (name : Str) :
    List.Forall₂ (fun (q : Nat × Rat × Rat × Rat) (d : PDest) => (∃ p ∈ puts, p.page = q.1 ∧ p.objId = d.page) ∧ d.x = q.2.1 ∧ d.y = q.2.2.1 ∧ d.zoom = q.2.2.2)
      (spotsOf rnd width name (puts.map fun p => ⟨p.page, p.x, p.y, p.ids⟩)) (labelDests rnd name puts) := by
  unfold spotsOf labelDests
  rw [List.flatMap_map]
  generalize hq : (fun (q : Nat × Rat × Rat × Rat) (d : PDest) => (∃ p ∈ puts, p.page = q.1 ∧ p.objId = d.page) ∧ d.x = q.2.1 ∧ d.y = q.2.2.1 ∧ d.zoom = q.2.2.2) = Q
  have key : ∀ (l : List Put), (∀ p ∈ l, p ∈ puts) →
      List.Forall₂ Q (l.flatMap fun p => p.ids.flatMap (idSpots rnd width name ⟨p.page, p.x, p.y, p.ids⟩))
        (l.flatMap fun p => p.ids.flatMap (idDests rnd name p)) := by
    intro l
    induction l with
    | nil => intro _; exact .nil
    | cons p l ih =>
      intro hl
      simp only [List.flatMap_cons]
      refine List.rel_append ?_ (ih fun q hq => hl q (by simp [hq]))
      have hp := hl p (by simp)
      generalize hids : p.ids = ids0
      have : ∀ ids : List (Str × List IdRect), List.Forall₂ Q (ids.flatMap (idSpots rnd width name ⟨p.page, p.x, p.y, ids0⟩)) (ids.flatMap (idDests rnd name p)) := by
        intro ids
        induction ids with
        | nil => exact .nil
        | cons id ids ih' =>
          simp only [List.flatMap_cons]
          refine List.rel_append ?_ ih'
          unfold idSpots idDests
          cases idKind id.1 <;> cases id.2 <;> simp only <;> try exact .nil
          split
          · refine .cons ?_ .nil
            rw [← hq]
            refine ⟨⟨p, hp, rfl, rfl⟩, rfl, rfl, ?_⟩
            simp only [hw p hp]
          · exact .nil
      exact this ids0
  exact key puts fun _ h => h

theorem forall₂_getLast? {α β : Type} {R : α → β → Prop} : ∀ {l : List α} {m : List β}, List.Forall₂ R l m →
    (l.getLast? = none ∧ m.getLast? = none) ∨ ∃ a b, l.getLast? = some a ∧ m.getLast? = some b ∧ R a b
  | [], [], .nil => .inl ⟨rfl, rfl⟩
  | a :: l, b :: m, .cons h1 h2 => by
    right
    rcases forall₂_getLast? h2 with ⟨e1, e2⟩ | ⟨x, y, e1, e2, e3⟩
    · rw [List.getLast?_eq_none_iff] at e1 e2
      subst e1; subst e2
      exact ⟨a, b, rfl, rfl, h1⟩
    · exact ⟨x, y, by rw [List.getLast?_cons, e1]; rfl, by rw [List.getLast?_cons, e2]; rfl, e3⟩

mutual
theorem items_preItem : ∀ (o : Outline) (k : Nat), (Spec.Outline.bookmark o).items k = (preItem k o).map fun x => (x.1, latinBytes x.2.1, latinBytes x.2.2)
  | .node t l ch, k => by
    simp only [Spec.Outline.bookmark, Bookmark.items, preItem, List.map_cons, items_preorder ch (k + 1)]
theorem items_preorder : ∀ (l : List Outline) (k : Nat), Bookmark.allItems k (Spec.Outline.bookmarkList l) =
    (preorder k l).map fun x => (x.1, latinBytes x.2.1, latinBytes x.2.2)
  | [], k => rfl
  | o :: l, k => by
    simp only [Spec.Outline.bookmarkList, Bookmark.allItems, preorder, List.map_append, items_preItem o k, items_preorder l k]
end

/-- what a reader finds in the file of a document that meets what was asked for -/
theorem ops_read {E : PdfEnv} {s : PdfD} {sizes : List (Rat × Rat)} {places : List Place} (hout : OutInv s.doc) (hi : OpsInv E s.doc sizes places)
    {level : Int} {b : Base} (hb : s.doc.withTrees E.num level = .ok b)
    (hread : ∀ o ∈ b.content, readable o.value = true) (flate : Bytes → Bytes) (u1 u2 : Bytes)
    (hok : (b.output flate u1 u2).err = none) (hsmall : (b.output flate u1 u2).written.length < 10 ^ 10)
    (hu1 : 60 ∉ u1 ∧ 62 ∉ u1) (hu2 : 60 ∉ u2 ∧ 62 ∉ u2) :
    ∃ R N ids, openFile (b.output flate u1 u2).written = some R ∧ ids.length = sizes.length ∧
      (∀ depth, N ≤ depth → R.pages depth = some ids) ∧
      (∀ (i id : Nat), ids[i]? = some id → ∃ D width height w h ls, R.dict id = some D ∧
        sizes[i]? = some (width, height) ∧ meaning (E.num width) = some w ∧ meaning (E.num height) = some h ∧
        Spec.lookup b!"MediaBox" D = some (.arr [.int 0, .int 0, w, h]) ∧
        R.links D = some ls ∧ List.Forall₂ (LinkMeets E.num) (linksOn E.rnd i places) ls) ∧
      (∀ depth, N ≤ depth → ∀ label : Str, (label.all fun c => decide (c.toNat < 256)) = true →
        match (spotsOf E.rnd (fun i => ((sizes[i]?).map Prod.fst).getD 0) label places).getLast? with
        | none => R.dest depth (latinBytes label) = none
        | some (i, x, y, zoom) => ∃ id mx my mz, ids[i]? = some id ∧ meaning (E.num x) = some mx ∧ meaning (E.num y) = some my ∧
            meaning (E.num zoom) = some mz ∧ R.dest depth (latinBytes label) = some (.arr [.ref id 0, .name b!"XYZ", mx, my, mz])) ∧
      ∀ depth, N ≤ depth → ∃ o, R.outline depth = some o ∧
        Bookmark.allItems 1 o = (outlinesOf E.json places).map fun x => (outlineLevel x.1, latinBytes x.2.1, latinBytes x.2.2) := by
  obtain ⟨R, N, r1, r2, r3, r4, r5⟩ := document_read hout hb hread flate u1 u2 hok hsmall hu1 hu2
  obtain ⟨puts, p1, p2, p3⟩ := hi.puts
  have hat : ∀ (i : Nat) (pg : Page), s.doc.pages[i]? = some pg → sizes[i]? = some (pg.width, pg.height) := by
    intro i pg h
    rw [← hi.sizes, List.getElem?_map, h]; rfl
  refine ⟨R, N, s.doc.pages.map Page.objId, r1, ?_, r2, ?_, ?_, ?_⟩
  · rw [← hi.sizes, List.length_map, List.length_map]
  · intro i id hid
    rw [List.getElem?_map] at hid
    obtain ⟨pg, hpg, rfl⟩ := Option.map_eq_some_iff.1 hid
    obtain ⟨D, d1, ⟨w, h, d2, d3, d4⟩, -, -, ls, d5, d6⟩ := (r3 pg (List.mem_of_getElem? hpg)).shown
    refine ⟨D, pg.width, pg.height, w, h, ls, d1, hat i pg hpg, d2, d3, d4, d5, ?_⟩
    rw [p1.annots i pg hpg] at d6
    rw [← p2]
    exact links_meet p1 d6
  · intro depth hd label hl
    have h4 := r4 depth hd label hl
    rw [p1.dests label] at h4
    have hm := spots_meet (rnd := E.rnd) (width := fun i => ((sizes[i]?).map Prod.fst).getD 0) (puts := puts) (by
      intro q hq
      have := p3 q hq
      obtain ⟨pg, hpg, e⟩ := Option.map_eq_some_iff.1 this
      simp only [hat _ _ hpg, Option.map_some, Option.getD_some]
      exact (Prod.mk.inj e).2) label
    rw [p2] at hm
    rcases forall₂_getLast? hm with ⟨e1, e2⟩ | ⟨⟨i, x, y, zoom⟩, d, e1, e2, ⟨q, hq, rfl, e3⟩, rfl, rfl, rfl⟩
    · rw [e2] at h4
      rw [e1]
      exact h4
    · rw [e2] at h4
      rw [e1]
      obtain ⟨-, mx, my, mz, k1, k2, k3, k4⟩ := h4
      refine ⟨d.page, mx, my, mz, ?_, k1, k2, k3, k4⟩
      obtain ⟨pg, hpg, e⟩ := Option.map_eq_some_iff.1 (p3 q hq)
      rw [List.getElem?_map, hpg, ← e3]
      exact congrArg some (Prod.mk.inj e).1
  · intro depth hd
    refine ⟨_, r5 depth hd, ?_⟩
    rw [items_preorder]
    have h := C47_outline_levels (outlinesOf E.json places)
    have ho := hi.outlines
    by_cases hn : Spec.noSkip 0 (outlinesOf E.json places)
    · obtain ⟨f, g1, g2⟩ := h.1 hn
      rw [g1] at ho
      cases ho
      rw [g2, List.map_map]
      rfl
    · rw [h.2 hn] at ho
      cases ho

/-- **C65.** From the operations to what a reader shows. The pages are those that were added, each with its
size, in their order. The links of a page are those of the paragraphs placed on it (also of the paragraphs
inside content boxes), each with its rectangle and target, in their order, and no others. A name leads to the
place where it was put last, and other names lead nowhere. The outline has exactly the items of the
paragraphs, in their order and at their levels. -/
theorem C65_operations {E : PdfEnv} {F : NumFmt} {p p' : FProc} {version : Str} {ops : List PdfOp} {s : PdfD}
    (hist : PdfD.history E F p version ops = .ok (p', s)) (him : ∀ im ∈ docImages ops, ¬ isAction im.obj)
    {level : Int} {b : Base} (hb : s.doc.withTrees E.num level = .ok b)
    (hread : ∀ o ∈ b.content, readable o.value = true) (flate : Bytes → Bytes) (u1 u2 : Bytes)
    (hok : (b.output flate u1 u2).err = none) (hsmall : (b.output flate u1 u2).written.length < 10 ^ 10)
    (hu1 : 60 ∉ u1 ∧ 62 ∉ u1) (hu2 : 60 ∉ u2 ∧ 62 ∉ u2) :
    ∃ R N ids, openFile (b.output flate u1 u2).written = some R ∧ ids.length = (docSizes ops).length ∧
      (∀ depth, N ≤ depth → R.pages depth = some ids) ∧
      (∀ (i id : Nat), ids[i]? = some id → ∃ D width height w h ls, R.dict id = some D ∧
        (docSizes ops)[i]? = some (width, height) ∧ meaning (E.num width) = some w ∧ meaning (E.num height) = some h ∧
        Spec.lookup b!"MediaBox" D = some (.arr [.int 0, .int 0, w, h]) ∧
        R.links D = some ls ∧ List.Forall₂ (LinkMeets E.num) (linksOn E.rnd i (docPlaces 0 ops)) ls) ∧
      (∀ depth, N ≤ depth → ∀ label : Str, (label.all fun c => decide (c.toNat < 256)) = true →
        match (spotsOf E.rnd (fun i => (((docSizes ops)[i]?).map Prod.fst).getD 0) label (docPlaces 0 ops)).getLast? with
        | none => R.dest depth (latinBytes label) = none
        | some (i, x, y, zoom) => ∃ id mx my mz, ids[i]? = some id ∧ meaning (E.num x) = some mx ∧ meaning (E.num y) = some my ∧
            meaning (E.num zoom) = some mz ∧ R.dest depth (latinBytes label) = some (.arr [.ref id 0, .name b!"XYZ", mx, my, mz])) ∧
      ∀ depth, N ≤ depth → ∃ o, R.outline depth = some o ∧
        Bookmark.allItems 1 o = (outlinesOf E.json (docPlaces 0 ops)).map fun x => (outlineLevel x.1, latinBytes x.2.1, latinBytes x.2.2) :=
  ops_read (history_inv hist) (OpsInv.history him hist) hb hread flate u1 u2 hok hsmall hu1 hu2

/-! ### An example -/

private def ex65oE : PdfEnv := ⟨fun _ => none, fun x => .int x.num, fun _ => some (1, c!"Title", c!"l"), id⟩

/-- two pages; the second has a box with a paragraph that has a reference and an item of the outline -/
private def ex65oOps : List PdfOp :=
  [.page 100 200 10 10 10 10,
   .text 10 20 50 10 c!" (x)Tj" [] [] [(c!"$uri:http://a", [(1, 2, 3, 4)]), (c!"$label:l", [(1, 2, 3, 4)])] c!"bottom",
   .page 300 400 10 10 10 10,
   .box ⟨[], [], [.paragraph 10 30 50 10 c!" (y)Tj" [] [] [(c!"$ref:l", [(1, 2, 3, 4)]), (c!"$outline:x", [(1, 2, 3, 4)])]], 10⟩ 50 c!"bottom"]

/-- what is asked for -/
example : docSizes ex65oOps = [(100, 200), (300, 400)] := rfl
example : linksOn id 0 (docPlaces 0 ex65oOps) = [([11, 22, 13, 24], .uri b!"http://a")] := by decide +kernel
example : linksOn id 1 (docPlaces 0 ex65oOps) = [([11, 32, 13, 34], .goto b!"l")] := by decide +kernel
example : spotsOf id (fun i => (((docSizes ex65oOps)[i]?).map Prod.fst).getD 0) c!"l" (docPlaces 0 ex65oOps) = [(0, 11, 24, 111/100)] := by
  decide +kernel
example : outlinesOf ex65oE.json (docPlaces 0 ex65oOps) = [(1, c!"Title", c!"l")] := by decide +kernel

/-- the hypotheses are met -/
example : (match PdfD.history ex65oE sampleFmt ⟨[], []⟩ c!"1.5" ex65oOps with
    | .error _ => false
    | .ok r => match r.2.doc.withTrees ex65oE.num 1 with
      | .error _ => false
      | .ok b => b.content.all (fun o => readable o.value) && ((b.output id b!"00" b!"11").err = none) &&
        decide ((b.output id b!"00" b!"11").written.length < 10 ^ 10)) = true := by decide +kernel

end Verif
