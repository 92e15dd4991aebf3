import Verif.Lemmas.PdfOutput
/-! Lemmas for C65: the objects of a document when `PDF.output` has added the trees. -/
namespace Verif
open Spec

/-! ### The trailer is left alone -/

theorem modify_trailer (b : Base) (id f) : (b.modify id f).trailer = b.trailer := by cases id <;> rfl
theorem addDict_trailer (b : Base) (d) : (b.addDict d).2.trailer = b.trailer := rfl

theorem setMedia_trailer (b : Base) (id s) : (setMedia b id s).trailer = b.trailer := by
  cases s
  · rfl
  · exact modify_trailer _ _ _

theorem pagesLoop_trailer (l : List (Nat × Option (Obj × Obj))) (b : Base) (nodes : List Nat) (count : Nat) :
    (pagesLoop b nodes count l).1.trailer = b.trailer := by
  induction l generalizing b nodes count with
  | nil => rfl
  | cons p l ih =>
    simp only [pagesLoop]
    rw [ih, modify_trailer, modify_trailer]
    unfold newNode
    split
    · exact setMedia_trailer _ _ _
    · exact setMedia_trailer _ _ _

theorem buildPages_trailer (root : Nat) : ∀ (fuel : Nat) (b b' : Base) (l), buildPagesTree root fuel b l = .ok b' →
    b'.trailer = b.trailer
  | 0, _, _, _, h => by cases h
  | fuel + 1, b, b', l, h => by
    simp only [buildPagesTree] at h
    split at h
    · cases h
      rw [modify_trailer, pagesLoop_trailer]
    · rw [buildPages_trailer root fuel _ _ _ h, pagesLoop_trailer]

theorem nameLoop_trailer (field : Key) (len : Nat) (l : List NameItem) (i : Nat) (s : NameLoop) :
    (nameLoop field len i s l).base.trailer = s.base.trailer := by
  induction l generalizing i s with
  | nil => rfl
  | cons it l ih =>
    simp only [nameLoop]
    rw [ih]
    have h1 : ∀ s, (nameClose len i s it).base.trailer = s.base.trailer := by
      intro s
      unfold nameClose
      split
      · exact modify_trailer _ _ _
      · rfl
    have h2 : ∀ s, (nameAppend field s it).base.trailer = s.base.trailer := fun s => modify_trailer _ _ _
    have h3 : (nameOpen field i s it).base.trailer = s.base.trailer := by
      unfold nameOpen
      split
      · simp only [modify_trailer, addDict_trailer]
      · rfl
    rw [h1, h2, h3]

theorem buildNames_trailer (root : Nat) : ∀ (fuel : Nat) (field : Key) (b b' : Base) (l), buildNameTree root fuel field b l = .ok b' →
    b'.trailer = b.trailer
  | 0, _, _, _, _, h => by cases h
  | fuel + 1, field, b, b', l, h => by
    simp only [buildNameTree] at h
    split at h
    · cases h
      rw [modify_trailer, modify_trailer, nameLoop_trailer]
    · rw [buildNames_trailer root fuel _ _ _ _ h, nameLoop_trailer]

theorem outlineObj_trailer (b : Base) (parent : Nat) (prev : Option Nat) (text label : Str) :
    (outlineObj b parent prev text label).2.trailer = b.trailer := by
  cases prev <;> simp only [outlineObj, modify_trailer, addDict_trailer]

mutual
theorem outlineItem_trailer : ∀ (o : Outline) (level : Int) (parent : Nat) (b : Base) (prev : Option Nat),
    (outlineItem level parent b prev o).2.1.trailer = b.trailer
  | .node text label [], level, parent, b, prev => by
    simp only [outlineItem, outlineObj_trailer]
  | .node text label (c :: cs), level, parent, b, prev => by
    simp only [outlineItem]
    split <;> simp only [modify_trailer] <;> rw [outlineLoop_trailer (c :: cs), outlineObj_trailer]
theorem outlineLoop_trailer : ∀ (l : List Outline) (level : Int) (parent : Nat) (b : Base) (prev : Option Nat) (count : Nat),
    (outlineLoop level parent b prev count l).1.trailer = b.trailer
  | [], _, _, _, _, _ => by simp only [outlineLoop]
  | o :: l, level, parent, b, prev, count => by
    simp only [outlineLoop]
    rw [outlineLoop_trailer l, outlineItem_trailer o]
end

theorem buildOutlines_trailer (root : Nat) (level : Int) (b : Base) (l : List Outline) :
    (buildOutlines root level b l).trailer = b.trailer := by
  unfold buildOutlines
  split
  · rfl
  · simp only [modify_trailer, outlineLoop_trailer, addDict_trailer]

/-! ### The parts of the pages are put into the dicts -/

/-- what `flush` does to the dict of the page -/
def Page.fill (num : Rat → Obj) (p : Page) (d : List (Key × Obj)) : List (Key × Obj) :=
  p.setAnnots num (dset kResources p.resources d)

theorem flush_at (num : Rat → Obj) (p : Page) (b : Base) (j : Nat) (h0 : p.objId ≠ p.objId - 1) :
    (p.flush num b).dictAt j = if j = p.objId then (b.dictAt j).map (p.fill num)
      else if j = p.objId - 1 then (b.dictAt j).map (dset kStream p.chunks) else b.dictAt j := by
  unfold Page.flush
  rw [dictAt_modify]
  by_cases h : j = p.objId
  · rw [if_pos h, if_pos h, dictAt_modify_ne _ _ (by rw [h]; exact h0)]
    rfl
  · rw [if_neg h, if_neg h, dictAt_modify]

theorem flushAll (num : Rat → Obj) : ∀ (l : List Page) (b : Base), b.Wf → (l.map Page.objId).Nodup →
    (∀ p ∈ l, ∀ q ∈ l, p.objId ≠ q.objId - 1) →
    (l.foldl (fun b p => p.flush num b) b).Wf ∧ (l.foldl (fun b p => p.flush num b) b).trailer = b.trailer ∧
    (l.foldl (fun b p => p.flush num b) b).count = b.count ∧
    (∀ p ∈ l, (l.foldl (fun b p => p.flush num b) b).dictAt p.objId = (b.dictAt p.objId).map (p.fill num) ∧
      (l.foldl (fun b p => p.flush num b) b).dictAt (p.objId - 1) = (b.dictAt (p.objId - 1)).map (dset kStream p.chunks)) ∧
    ∀ j, (∀ p ∈ l, j ≠ p.objId ∧ j ≠ p.objId - 1) → (l.foldl (fun b p => p.flush num b) b).dictAt j = b.dictAt j := by
  intro l
  induction l with
  | nil => intro b hw _ _; exact ⟨hw, rfl, rfl, by simp, fun _ _ => rfl⟩
  | cons p l ih =>
    intro b hw hnd hsep
    simp only [List.map_cons, List.nodup_cons] at hnd
    obtain ⟨h1, h2, h3, h4, h5⟩ := ih (p.flush num b) ((hw.modify _ _).modify _ _) hnd.2
      fun x hx y hy => hsep x (by simp [hx]) y (by simp [hy])
    have h0 := hsep p (by simp) p (by simp)
    have hat := fun j => flush_at num p b j h0
    refine ⟨h1, ?_, ?_, ?_, ?_⟩
    · rw [List.foldl_cons, h2, Page.flush, modify_trailer, modify_trailer]
    · rw [List.foldl_cons, h3, Page.flush, modify_count, modify_count]
    · intro q hq
      rw [List.foldl_cons]
      rcases List.mem_cons.1 hq with rfl | hq
      · have a1 : ∀ r ∈ l, q.objId ≠ r.objId ∧ q.objId ≠ r.objId - 1 := fun r hr =>
          ⟨fun e => hnd.1 (e ▸ List.mem_map_of_mem hr), hsep q (by simp) r (by simp [hr])⟩
        have a2 : ∀ r ∈ l, q.objId - 1 ≠ r.objId ∧ q.objId - 1 ≠ r.objId - 1 := fun r hr => by
          have c1 := hsep r (by simp [hr]) q (by simp)
          have c2 := hsep r (by simp [hr]) r (by simp [hr])
          have c3 := (a1 r hr).1
          omega
        rw [h5 _ a1, h5 _ a2, hat, hat, if_pos rfl, if_neg (Ne.symm h0), if_pos rfl]
        exact ⟨rfl, rfl⟩
      · have c0 : q.objId ≠ p.objId := fun e => hnd.1 (e ▸ List.mem_map_of_mem hq)
        have c1 := hsep q (by simp [hq]) p (by simp)
        have c2 := hsep p (by simp) q (by simp [hq])
        have c3 := hsep q (by simp [hq]) q (by simp [hq])
        have c4 : q.objId - 1 ≠ p.objId - 1 := by omega
        obtain ⟨g1, g2⟩ := h4 q hq
        rw [g1, g2, hat, hat, if_neg c0, if_neg c1, if_neg (Ne.symm c2), if_neg c4]
        exact ⟨rfl, rfl⟩
    · intro j hj
      rw [List.foldl_cons, h5 j fun q hq => hj q (by simp [hq]), hat, if_neg (hj p (by simp)).1, if_neg (hj p (by simp)).2]

/-! ### The page tree in another table -/

mutual
theorem PageNode.move {tbl tbl' : Table} (h : ∀ j d, tbl j = some d → (dget (.str c!"Type") d = some (.bytes b!"/Page") ∨
      dget (.str c!"Type") d = some (.bytes b!"/Pages")) → tbl' j = some d) : ∀ {par id l}, PageNode tbl par id l →
    PageNode tbl' par id l
  | _, _, _, .page h1 h2 h3 => .page (h _ _ h1 (.inl h2)) h2 h3
  | _, _, _, .pages h1 h2 h3 h4 h5 h6 => .pages (h _ _ h1 (.inr h2)) h2 h3 h4 h5 (PageNodes.move h h6)
theorem PageNodes.move {tbl tbl' : Table} (h : ∀ j d, tbl j = some d → (dget (.str c!"Type") d = some (.bytes b!"/Page") ∨
      dget (.str c!"Type") d = some (.bytes b!"/Pages")) → tbl' j = some d) : ∀ {par ids l}, PageNodes tbl par ids l →
    PageNodes tbl' par ids l
  | _, _, _, .nil => .nil
  | _, _, _, .cons h1 h2 => .cons (PageNode.move h h1) (PageNodes.move h h2)
end

/-! ### The three trees -/

/-- the dict of a page in the file; `tree` is the root of the page tree -/
def Page.dict (num : Rat → Obj) (tree : Nat) (p : Page) : List (Key × Obj) :=
  dset kParent (.ref tree) (dset kMediaBox (.seq [.int 0, .int 0, num p.width, num p.height]) (p.fill num (freshPage (p.objId - 1))))

/-- the dict of the stream of a page -/
def Page.streamDict (p : Page) : List (Key × Obj) := dset kStream p.chunks freshStream

/-- the state after `output` added the trees -/
structure Trees (num : Rat → Obj) (level : Int) (s : PdfT) (b : Base) : Prop where
  wf : b.Wf
  trailer : b.trailer = [(.str c!"Root", .ref 1)]
  catalog : ∃ dc, b.dictAt 1 = some dc ∧ dget (.str c!"Type") dc = some (.bytes b!"/Catalog") ∧
    (∃ n : Nat, dget (.str c!"Pages") dc = some (.ref n) ∧ PageNode b.dictAt none n (s.pages.map Page.objId) ∧
      ∀ p ∈ s.pages, b.dictAt p.objId = some (p.dict num n) ∧ b.dictAt (p.objId - 1) = some p.streamDict) ∧
    ((s.dests = [] ∧ dget (.str c!"Names") dc = none) ∨
      ∃ (m : Nat) (es : Entries), dget (.str c!"Names") dc = some (.dict [(.str c!"Dests", .ref m)]) ∧ NBody b.dictAt m es ∧ SortedKeys es ∧
        ∀ key, dget key es = dget key (s.dests.map fun d => (d.1, d.2.obj num))) ∧
    ((s.outlines = [] ∧ dget (.str c!"Outlines") dc = none) ∨
      ∃ (m first last : Nat) (dn : List (Key × Obj)), dget (.str c!"Outlines") dc = some (.ref m) ∧ b.dictAt m = some dn ∧
        dget (.str c!"First") dn = some (.ref first) ∧ dget (.str c!"Last") dn = some (.ref last) ∧
        OutSibs b.dictAt level m none first last s.outlines)
  uris : ∀ l n, dget l s.uris = some n → b.dictAt n = some (actionDict l)
  /-- all other objects are as they were -/
  kept : ∀ n d, s.base.dictAt n = some d → n ≠ 1 → (∀ p ∈ s.pages, n ≠ p.objId ∧ n ≠ p.objId - 1) → b.dictAt n = some d

theorem trees_ok {num : Rat → Obj} {level : Int} {s : PdfT} (hi : OutInv s) (hne : s.pages ≠ []) :
    ∃ b, s.withTrees num level = .ok b ∧ Trees num level s b := by
  have hlt : ∀ n ∈ s.pages.map Page.objId, 1 < n ∧ n < s.base.count := by
    intro n hn
    have h1 := dictAt_lt hi.wf (hi.page n hn).1
    have h2 := dictAt_lt hi.wf (hi.page n hn).2
    omega
  have hpid : ∀ p ∈ s.pages, p.objId ∈ s.pages.map Page.objId := fun p hp => List.mem_map_of_mem hp
  have hsep : ∀ p ∈ s.pages, ∀ q ∈ s.pages, p.objId ≠ q.objId - 1 := by
    intro p hp q hq e
    have h1 := (hi.page _ (hpid p hp)).1
    have h2 := (hi.page _ (hpid q hq)).2
    rw [e, h2] at h1
    simp [freshStream, freshPage, kFilter, kType] at h1
  have hcat1 : ∀ p ∈ s.pages, 1 ≠ p.objId ∧ 1 ≠ p.objId - 1 := by
    intro p hp
    refine ⟨fun e => by have := hlt _ (hpid p hp); omega, fun e => ?_⟩
    have h2 := (hi.page _ (hpid p hp)).2
    rw [← e, hi.catalog] at h2
    simp [freshStream, freshCatalog, kFilter, kType] at h2
  obtain ⟨f1, f2, f3, f4, f5⟩ := flushAll num s.pages s.base hi.wf hi.nodup hsep
  change (s.objects num).Wf at f1
  change (s.objects num).trailer = _ at f2
  change (s.objects num).count = _ at f3
  change ∀ p ∈ s.pages, (s.objects num).dictAt p.objId = _ ∧ (s.objects num).dictAt (p.objId - 1) = _ at f4
  change ∀ j, _ → (s.objects num).dictAt j = _ at f5
  have hfp : ∀ p ∈ s.pages, (s.objects num).dictAt p.objId = some (p.fill num (freshPage (p.objId - 1))) := by
    intro p hp
    rw [(f4 p hp).1, (hi.page _ (hpid p hp)).1]; rfl
  have hfs : ∀ p ∈ s.pages, (s.objects num).dictAt (p.objId - 1) = some p.streamDict := by
    intro p hp
    rw [(f4 p hp).2, (hi.page _ (hpid p hp)).2]; rfl
  have hfc : (s.objects num).dictAt 1 = some freshCatalog := by rw [f5 1 hcat1, hi.catalog]
  have hfu : ∀ l n, dget l s.uris = some n → (s.objects num).dictAt n = some (actionDict l) ∧ n ≠ 1 ∧ n ∉ s.pages.map Page.objId := by
    intro l n hn
    have h0 := hi.uris l n hn
    have hnp : n ∉ s.pages.map Page.objId := by
      intro hm
      rw [(hi.page n hm).1] at h0
      simp [freshPage, actionDict, kContents, kType] at h0
    refine ⟨?_, ?_, hnp⟩
    · rw [f5 n, h0]
      intro p hp
      refine ⟨fun e => hnp (e ▸ hpid p hp), fun e => ?_⟩
      rw [e, (hi.page _ (hpid p hp)).2] at h0
      simp [freshStream, actionDict, kFilter, kType] at h0
    · rintro rfl
      rw [hi.catalog] at h0
      simp [freshCatalog, actionDict] at h0
  have htype : ∀ p ∈ s.pages, dget kType (p.fill num (freshPage (p.objId - 1))) = some (.bytes b!"/Page") := by
    intro p _
    unfold Page.fill Page.setAnnots
    split
    · rw [dget_dset_ne (by decide)]; rfl
    · rw [dget_dset_ne (by decide), dget_dset_ne (by decide)]; rfl
  -- the pages
  have hmap : (s.pages.map fun p => (p.objId, num p.width, num p.height)).map Prod.fst = s.pages.map Page.objId := by
    rw [List.map_map]; rfl
  have hok : PagesOk (s.objects num) 1 (s.pages.map fun p => (p.objId, num p.width, num p.height)) := by
    refine ⟨f1, by rw [hmap]; exact hi.nodup, ⟨_, hfc⟩, ?_, ?_⟩
    · rw [hmap]
      intro hm
      have := hlt 1 hm
      omega
    · intro p hp
      obtain ⟨q, hq, rfl⟩ := List.mem_map.1 hp
      exact ⟨_, hfp q hq, htype q hq⟩
  obtain ⟨b1, n, g1, g2, g3, g4, g5, g6, g7, g8⟩ := buildPages_ok hok (by simpa using hne) 999
  rw [hmap] at g5 g7
  rw [List.map_map] at g1
  have gt := (buildPages_trailer 1 _ _ _ _ g1).trans (f2.trans hi.trailer)
  rw [hfc] at g6
  simp only [Option.map_some] at g6
  have hp1 : ∀ p ∈ s.pages, b1.dictAt p.objId = some (p.dict num n) := by
    intro p hp
    have := g8 _ (List.mem_map_of_mem hp)
    simp only at this
    rw [this, hfp p hp]; rfl
  have hs1 : ∀ p ∈ s.pages, b1.dictAt (p.objId - 1) = some p.streamDict := by
    intro p hp
    rw [g7 _ (Ne.symm (hcat1 p hp).2) ?_ ?_, hfs p hp]
    · have := hlt _ (hpid p hp)
      omega
    · intro hm
      obtain ⟨q, hq, e⟩ := List.mem_map.1 hm
      exact hsep q hq p hp e
  have hu1 : ∀ l m, dget l s.uris = some m → b1.dictAt m = some (actionDict l) ∧ m ≠ 1 := by
    intro l m hm
    obtain ⟨k1, k2, k3⟩ := hfu l m hm
    refine ⟨?_, k2⟩
    rw [g7 m k2 ?_ k3, k1]
    have := dictAt_lt f1 k1
    omega
  -- the labels
  have hD : ∃ b2 d2, buildDests 1 s.dests.length b1 (s.dests.map fun d => (d.1, d.2.obj num)) = .ok b2 ∧ b2.Wf ∧
      b2.trailer = b1.trailer ∧ (∀ j, j < b1.count → j ≠ 1 → b2.dictAt j = b1.dictAt j) ∧ b2.dictAt 1 = some d2 ∧
      (∀ k, k ≠ kNames → dget k d2 = dget k (dset kPages (.ref n) freshCatalog)) ∧
      ((s.dests = [] ∧ dget kNames d2 = none) ∨
        ∃ (m : Nat) (es : Entries), dget kNames d2 = some (.dict [(kDests, .ref m)]) ∧ NBody (without 1 b2.dictAt) m es ∧ SortedKeys es ∧
          ∀ key, dget key es = dget key (s.dests.map fun d => (d.1, d.2.obj num))) := by
    by_cases hd : s.dests = []
    · rw [hd]
      exact ⟨b1, _, rfl, g2, rfl, fun _ _ _ => rfl, g6, fun _ _ => rfl, .inl ⟨rfl, rfl⟩⟩
    · obtain ⟨b2, m, N, k1, -, -, k4, k5, k6, es, k7, k8, k9⟩ := nameTree_root_aux b1 1 s.dests.length
        (s.dests.map fun d => (d.1, d.2.obj num)) g2 _ g6 (.inl rfl) (by
          rw [List.map_map]; exact hi.dests) (by simpa using hd) (by simp)
      refine ⟨b2, _, k1, k6, ?_, k4, k5, fun k hk => dget_setDests hk, .inr ⟨m, es, ?_, k7, k8, k9⟩⟩
      · unfold buildDests at k1
        simp only at k1
        split at k1
        · cases k1; rfl
        · exact buildNames_trailer _ _ _ _ _ _ k1
      · have h1 : dget kNames (dset kPages (.ref n) freshCatalog) = none := rfl
        simp only [setDests, h1]
        exact dget_dset_self _ _ _
  obtain ⟨b2, d2, k1, k2, k3, k4, k5, k6, k7⟩ := hD
  have hc2 : b1.count ≤ b2.count := by
    -- the root of the page tree is still there
    have hn1 : ∃ d, b1.dictAt n = some d := by
      cases g5 with
      | pages h _ _ _ _ _ => exact ⟨_, h⟩
    obtain ⟨d, hd⟩ := hn1
    have a1 := dictAt_lt g2 hd
    have a2 := dictAt_lt f1 hfc
    have := k4 n a1.2 (by omega)
    rw [hd] at this
    have := dictAt_lt k2 this
    omega
  -- the outlines
  have hO : ∃ d3, (buildOutlines 1 level b2 s.outlines).Wf ∧
      (∀ j, j < b2.count → j ≠ 1 → (buildOutlines 1 level b2 s.outlines).dictAt j = b2.dictAt j) ∧
      (buildOutlines 1 level b2 s.outlines).dictAt 1 = some d3 ∧
      (∀ k, k ≠ kPageMode → k ≠ kOutlines → dget k d3 = dget k d2) ∧
      ((s.outlines = [] ∧ dget kOutlines d3 = none) ∨
      ∃ (m first last : Nat) (dn : List (Key × Obj)), dget kOutlines d3 = some (.ref m) ∧
        (buildOutlines 1 level b2 s.outlines).dictAt m = some dn ∧
        dget (.str c!"First") dn = some (.ref first) ∧ dget (.str c!"Last") dn = some (.ref last) ∧
        OutSibs (buildOutlines 1 level b2 s.outlines).dictAt level m none first last s.outlines) := by
    by_cases ho : s.outlines = []
    · rw [ho]
      exact ⟨d2, k2, fun _ _ _ => rfl, k5, fun _ _ _ => rfl, .inl ⟨rfl, by rw [k6 _ (by decide)]; rfl⟩⟩
    · obtain ⟨b', m, first, last, dr, dn, e, o1, o2, o3, o4, o5, -, o7, o8, o9, o10⟩ := C46_outline_tree b2 1 level s.outlines k2 d2 k5 ho
      subst e
      exact ⟨dr, o10, o8, o1, fun k h1 h2 => o9 k h1 h2, .inr ⟨m, first, last, dn, o2, o3, o4, o5, o7⟩⟩
  obtain ⟨d3, o1, o2, o3, o4, o5⟩ := hO
  have hmove : ∀ j d, b1.dictAt j = some d → j ≠ 1 → (buildOutlines 1 level b2 s.outlines).dictAt j = some d := by
    intro j d hj h1
    have := (dictAt_lt g2 hj).2
    rw [o2 j (by omega) h1, k4 j this h1, hj]
  refine ⟨buildOutlines 1 level b2 s.outlines, ?_, o1, ?_, ⟨d3, o3, ?_, ⟨n, ?_, ?_, ?_⟩, ?_, o5⟩, ?_, ?_⟩
  · unfold PdfT.withTrees
    rw [if_neg (by simpa using hne)]
    have : (s.pages.map fun p => (p.objId, some (num p.width, num p.height))) =
      s.pages.map ((fun p : Nat × Obj × Obj => (p.1, some p.2)) ∘ fun p => (p.objId, num p.width, num p.height)) := rfl
    rw [this, g1]
    simp only [k1]
  · rw [buildOutlines_trailer, k3, gt]
  · exact (o4 kType (by decide) (by decide)).trans (by rw [k6 _ (by decide)]; rfl)
  · exact (o4 kPages (by decide) (by decide)).trans (by rw [k6 _ (by decide)]; rfl)
  · refine PageNode.move (fun j d hj ht => hmove j d hj ?_) g5
    rintro rfl
    rw [g6] at hj
    cases hj
    rcases ht with ht | ht <;> exact absurd ht (by simp [dget, dset, freshCatalog, kType, kPages])
  · intro p hp
    exact ⟨hmove _ _ (hp1 p hp) (Ne.symm (hcat1 p hp).1), hmove _ _ (hs1 p hp) (Ne.symm (hcat1 p hp).2)⟩
  · have hn := o4 kNames (by decide) (by decide)
    rcases k7 with ⟨e, h⟩ | ⟨m, es, h, hb, hs, hg⟩
    · exact .inl ⟨e, hn.trans h⟩
    · refine .inr ⟨m, es, hn.trans h, hb.ext fun j d hj => ?_, hs, hg⟩
      unfold without at hj
      split at hj
      · cases hj
      · rename_i h1
        rw [o2 j (dictAt_lt k2 hj).2 h1, hj]
  · intro l m hm
    obtain ⟨a, b⟩ := hu1 l m hm
    exact hmove _ _ a b
  · intro j d hj h1 hp
    have e : (s.objects num).dictAt j = some d := by rw [f5 j hp, hj]
    refine hmove j d ?_ h1
    rw [g7 j h1 (by have := dictAt_lt f1 e; omega) ?_, e]
    intro hm
    obtain ⟨p, hpm, rfl⟩ := List.mem_map.1 hm
    exact (hp p hpm).1 rfl

end Verif
