import Verif.Lemmas.Table
import Verif.Spec.PageTree
/-! C44: the page tree. -/
namespace Verif
open Spec

/-- what the loop does once a node exists (its count stays 1) -/
theorem pagesLoop_one {n : Nat} : ∀ (l : List (Nat × Obj × Obj)) (b : Base) (dn : List (Key × Obj))
    (ks : List Obj) (c : Int), b.Wf → b.dictAt n = some dn → dget kKids dn = some (.seq ks) →
    dget kCount dn = some (.int c) → (l.map Prod.fst).Nodup → (∀ p ∈ l, p.1 ≠ n) →
    (∀ p ∈ l, ∃ d, b.dictAt p.1 = some d) →
    ∃ b' dn', pagesLoop b [n] 1 (l.map fun p => (p.1, some p.2)) = (b', [n], 1) ∧ b'.Wf ∧ b'.count = b.count ∧
      b'.dictAt n = some dn' ∧ dget kKids dn' = some (.seq (ks ++ l.map fun p => .ref p.1)) ∧
      dget kCount dn' = some (.int (c + l.length)) ∧
      (∀ k, k ≠ kKids → k ≠ kCount → dget k dn' = dget k dn) ∧
      (∀ id, id ≠ n → id ∉ l.map Prod.fst → b'.dictAt id = b.dictAt id) ∧
      (∀ p ∈ l, b'.dictAt p.1 = (b.dictAt p.1).map fun d => dset kParent (.ref n)
        (dset kMediaBox (.seq [.int 0, .int 0, p.2.1, p.2.2]) d)) := by
  intro l
  induction l with
  | nil =>
    intro b dn ks c hw hd h1 h2 _ _ _
    exact ⟨b, dn, rfl, hw, rfl, hd, by simpa using h1, by simpa using h2, fun _ _ _ => rfl, fun _ _ _ => rfl,
      by simp⟩
  | cons p l ih =>
    intro b dn ks c hw hd h1 h2 hnd hne hex
    obtain ⟨id, w, h⟩ := p
    have hidn : id ≠ n := hne (id, w, h) (by simp)
    simp only [List.map_cons, List.nodup_cons] at hnd
    -- the state after the first page
    let f1 := dset (ν := Obj) kMediaBox (.seq [.int 0, .int 0, w, h])
    let f2 := dset (ν := Obj) kParent (.ref n)
    let f3 := fun d => dictIncr kCount (dictAppend kKids (.ref id) d)
    let b3 := ((b.modify id f1).modify id f2).modify n f3
    have hat : ∀ j, b3.dictAt j = if j = n then (b.dictAt j).map f3 else if j = id then
        (b.dictAt j).map (fun d => f2 (f1 d)) else b.dictAt j := by
      intro j
      simp only [b3, dictAt_modify]
      by_cases hj : j = n
      · subst hj
        rw [if_pos rfl, if_pos rfl, if_neg (Ne.symm hidn), if_neg (Ne.symm hidn)]
      · rw [if_neg hj, if_neg hj]
        by_cases hj2 : j = id
        · rw [if_pos hj2, if_pos hj2, if_pos hj2]
          cases b.dictAt j <;> rfl
        · rw [if_neg hj2, if_neg hj2, if_neg hj2]
    have hn3 : b3.dictAt n = some (f3 dn) := by rw [hat, if_pos rfl, hd]; rfl
    have happ : dictAppend kKids (.ref id) dn = dset kKids (.seq (ks ++ [.ref id])) dn := by
      simp [dictAppend, h1]
    have hinc : f3 dn = dset kCount (.int (c + 1)) (dset kKids (.seq (ks ++ [.ref id])) dn) := by
      simp only [f3, happ, dictIncr]
      rw [dget_dset_ne (by decide), h2]
    have hk3 : dget kKids (f3 dn) = some (.seq (ks ++ [.ref id])) := by
      rw [hinc, dget_dset_ne (by decide), dget_dset_self]
    have hc3 : dget kCount (f3 dn) = some (.int (c + 1)) := by rw [hinc, dget_dset_self]
    have hrest : ∀ k, k ≠ kKids → k ≠ kCount → dget k (f3 dn) = dget k dn := by
      intro k e1 e2
      rw [hinc, dget_dset_ne (Ne.symm e2), dget_dset_ne (Ne.symm e1)]
    obtain ⟨b', dn', e1, e2, e2', e3, e4, e5, e6, e7, e8⟩ := ih b3 (f3 dn) (ks ++ [.ref id]) (c + 1)
      (((hw.modify _ _).modify _ _).modify _ _) hn3 hk3 hc3 hnd.2 (fun q hq => hne q (by simp [hq])) (by
        intro q hq
        obtain ⟨d, hd'⟩ := hex q (by simp [hq])
        rw [hat, hd']
        by_cases hq1 : q.1 = n
        · rw [if_pos hq1]; exact ⟨_, rfl⟩
        · rw [if_neg hq1]
          by_cases hq2 : q.1 = id
          · rw [if_pos hq2]; exact ⟨_, rfl⟩
          · rw [if_neg hq2]; exact ⟨_, rfl⟩)
    refine ⟨b', dn', ?_, e2, ?_, e3, ?_, ?_, ?_, ?_, ?_⟩
    · rw [← e1]
      simp only [List.map_cons, pagesLoop, setMedia, newNode]
      rfl
    · rw [e2']; simp only [b3, modify_count]
    · rw [e4]; simp
    · rw [e5]; simp only [List.length_cons]; congr 2; push_cast; omega
    · intro k k1 k2; rw [e6 k k1 k2, hrest k k1 k2]
    · intro j j1 j2
      simp only [List.map_cons, List.mem_cons, not_or] at j2
      rw [e7 j j1 j2.2, hat, if_neg j1, if_neg j2.1]
    · intro q hq
      rcases List.mem_cons.1 hq with rfl | hq
      · simp only
        rw [e7 id hidn hnd.1, hat, if_neg hidn, if_pos rfl]
      · have hq1 : q.1 ≠ id := by
          intro e
          exact hnd.1 (e ▸ List.mem_map_of_mem hq)
        rw [e8 q hq, hat, if_neg (hne q (by simp [hq])), if_neg hq1]

/-- the document state the page tree is built from -/
structure PagesOk (b : Base) (root : Nat) (pages : List (Nat × Obj × Obj)) : Prop where
  wf : b.Wf
  nodup : (pages.map Prod.fst).Nodup
  rootOk : ∃ d, b.dictAt root = some d
  notRoot : root ∉ pages.map Prod.fst
  isPage : ∀ p ∈ pages, ∃ d, b.dictAt p.1 = some d ∧ dget kType d = some (.bytes b!"/Page")

theorem buildPages_ok {b : Base} {root : Nat} {pages : List (Nat × Obj × Obj)} (hp : PagesOk b root pages)
    (hne : pages ≠ []) (fuel : Nat) :
    ∃ b' n, buildPagesTree root (fuel + 1) b (pages.map fun p => (p.1, some p.2)) = .ok b' ∧
      b'.Wf ∧ n = b.count ∧ b'.count = b.count + 1 ∧
      PageNode b'.dictAt none n (pages.map Prod.fst) ∧
      (b'.dictAt root = (b.dictAt root).map (dset kPages (.ref n))) ∧
      (∀ id, id ≠ root → id ≠ n → id ∉ pages.map Prod.fst → b'.dictAt id = b.dictAt id) ∧
      (∀ p ∈ pages, b'.dictAt p.1 = (b.dictAt p.1).map fun d => dset kParent (.ref n)
        (dset kMediaBox (.seq [.int 0, .int 0, p.2.1, p.2.2]) d)) := by
  obtain ⟨⟨id, w, h⟩, l, rfl⟩ := List.exists_cons_of_ne_nil hne
  let n := b.count
  let f1 := dset (ν := Obj) kMediaBox (.seq [.int 0, .int 0, w, h])
  let f2 := dset (ν := Obj) kParent (.ref n)
  let b1 := b.modify id f1
  let b2 := (b1.addDict pagesNode).2
  let f3 := fun d => dictIncr kCount (dictAppend kKids (.ref id) d)
  let b3 := (b2.modify id f2).modify n f3
  have hw1 : b1.Wf := hp.wf.modify _ _
  have hc1 : b1.count = n := modify_count _ _ _
  have hw2 : b2.Wf := hw1.addDict _
  have hnone : b.dictAt n = none := dictAt_count hp.wf
  have hne' : ∀ p ∈ (id, w, h) :: l, p.1 ≠ n := by
    intro p hpm e
    obtain ⟨d, hd, _⟩ := hp.isPage p hpm
    rw [e, hnone] at hd
    cases hd
  have hidn : id ≠ n := hne' (id, w, h) (by simp)
  have hroot : root ≠ n := by
    intro e
    obtain ⟨d, hd⟩ := hp.rootOk
    rw [e, hnone] at hd
    cases hd
  have hat2 : ∀ j, b2.dictAt j = if j = n then some pagesNode else if j = id then (b.dictAt j).map f1 else b.dictAt j := by
    intro j
    by_cases hj : j = n
    · rw [if_pos hj, hj]
      have := dictAt_add_self hw1 pagesNode
      rw [hc1] at this
      exact this
    · rw [if_neg hj]
      have := dictAt_add_ne hw1 pagesNode (id := j) (by rw [hc1]; exact hj)
      rw [show b2.dictAt j = _ from this, dictAt_modify]
  have hat : ∀ j, b3.dictAt j = if j = n then some (f3 pagesNode) else if j = id then
      (b.dictAt j).map (fun d => f2 (f1 d)) else b.dictAt j := by
    intro j
    simp only [b3, dictAt_modify, hat2]
    by_cases hj : j = n
    · subst hj
      rw [if_pos rfl, if_pos rfl, if_neg (Ne.symm hidn), if_pos rfl]; rfl
    · rw [if_neg hj, if_neg hj, if_neg hj]
      by_cases hj2 : j = id
      · rw [if_pos hj2, if_pos hj2, if_pos hj2]
        cases b.dictAt j <;> rfl
      · rw [if_neg hj2, if_neg hj2, if_neg hj2]
  have hnd := hp.nodup
  simp only [List.map_cons, List.nodup_cons] at hnd
  obtain ⟨b', dn', e1, e2, e2', e3, e4, e5, e6, e7, e8⟩ := pagesLoop_one (n := n) l b3 (f3 pagesNode) [.ref id] 1
    ((hw2.modify _ _).modify _ _) (by rw [hat, if_pos rfl]) rfl rfl hnd.2
    (fun q hq => hne' q (by simp [hq])) (by
      intro q hq
      obtain ⟨d, hd', _⟩ := hp.isPage q (by simp [hq])
      rw [hat, hd', if_neg (hne' q (by simp [hq]))]
      by_cases hq2 : q.1 = id
      · rw [if_pos hq2]; exact ⟨_, rfl⟩
      · rw [if_neg hq2]; exact ⟨_, rfl⟩)
  have hloop : pagesLoop b [] 0 (((id, w, h) :: l).map fun p => (p.1, some p.2)) = (b', [n], 1) := by
    rw [← e1]
    have hn : b1.count = n := hc1
    simp only [List.map_cons, pagesLoop, setMedia, newNode, Nat.zero_mod, if_true, Base.addDict]
    simp only [b3, b2, b1, f1, f2, f3, Base.addDict, List.nil_append, List.getLastD_cons, List.getLastD_nil, modify_count]
    rfl
  have hrl : root ∉ ((id, w, h) :: l).map Prod.fst := hp.notRoot
  have hat' : ∀ j, (b'.modify root (dset kPages (.ref n))).dictAt j =
      if j = root then (b'.dictAt j).map (dset kPages (.ref n)) else b'.dictAt j := fun j => dictAt_modify _ _ _ _
  have hpages : ∀ p ∈ (id, w, h) :: l, (b'.modify root (dset kPages (.ref n))).dictAt p.1 =
      (b.dictAt p.1).map fun d => dset kParent (.ref n)
        (dset kMediaBox (.seq [.int 0, .int 0, p.2.1, p.2.2]) d) := by
    intro p hpm
    have hpr : p.1 ≠ root := by
      intro e
      exact hrl (e ▸ List.mem_map_of_mem hpm)
    rw [hat', if_neg hpr]
    rcases List.mem_cons.1 hpm with rfl | hpm
    · simp only
      rw [e7 id hidn hnd.1, hat, if_neg hidn, if_pos rfl]
    · have hq1 : p.1 ≠ id := by
        intro e
        exact hnd.1 (e ▸ List.mem_map_of_mem hpm)
      rw [e8 p hpm, hat, if_neg (hne' p (by simp [hpm])), if_neg hq1]
  refine ⟨b'.modify root (dset kPages (.ref n)), n, ?_, e2.modify _ _, rfl, ?_, ?_, ?_, ?_, hpages⟩
  · simp only [buildPagesTree, hloop, if_true, List.headD_cons]
  · rw [modify_count, e2']
    simp only [b3, modify_count, b2, addDict_count, hc1]
    rfl
  · refine .pages (kids := ((id, w, h) :: l).map Prod.fst) (d := dn') ?_ ?_ ?_ ?_ ?_ ?_
    · rw [hat', if_neg (Ne.symm hroot), e3]
    · rw [show (Key.str c!"Type") = kType from rfl, e6 kType (by decide) (by decide)]; rfl
    · rw [show (Key.str c!"Parent") = kParent from rfl, e6 kParent (by decide) (by decide)]; rfl
    · rw [show (Key.str c!"Kids") = kKids from rfl, e4]; simp
    · rw [show (Key.str c!"Count") = kCount from rfl, e5]
      simp only [List.map_cons, List.length_cons, List.length_map]
      congr 2; push_cast; omega
    · have : ∀ q : List (Nat × Obj × Obj), (∀ p ∈ q, p ∈ (id, w, h) :: l) →
          PageNodes (b'.modify root (dset kPages (.ref n))).dictAt n (q.map Prod.fst) (q.map Prod.fst) := by
        intro q
        induction q with
        | nil => intro _; exact .nil
        | cons p q ihq =>
          intro hq
          obtain ⟨d, hd, ht⟩ := hp.isPage p (hq p (by simp))
          refine .cons (l := [p.1]) (.page (by rw [hpages p (hq p (by simp)), hd]; rfl) ?_ ?_)
            (ihq fun r hr => hq r (by simp [hr]))
          · rw [show (Key.str c!"Type") = kType from rfl, dget_dset_ne (by decide), dget_dset_ne (by decide), ht]
          · rw [show (Key.str c!"Parent") = kParent from rfl, dget_dset_self]
      exact this _ fun p hp => hp
  · rw [hat', if_pos rfl, e7 root hroot (fun e => hrl (by rw [List.map_cons]; exact List.mem_cons_of_mem _ e)), hat, if_neg hroot,
      if_neg (by rintro rfl; exact hrl (by simp))]
  · intro j j1 j2 j3
    simp only [List.map_cons, List.mem_cons, not_or] at j3
    rw [hat', if_neg j1, e7 j j2 j3.2, hat, if_neg j2, if_neg j3.1]

theorem PagesOk.modify {b : Base} {root : Nat} {pages} (h : PagesOk b root pages) (id : Nat) (k : Key) (v : Obj)
    (hk : k ≠ kType) : PagesOk (b.modify id (dset k v)) root pages := by
  refine ⟨h.wf.modify _ _, h.nodup, ?_, h.notRoot, ?_⟩
  · obtain ⟨d, hd⟩ := h.rootOk
    rw [dictAt_modify, hd]
    split
    · exact ⟨_, rfl⟩
    · exact ⟨_, rfl⟩
  · intro p hp
    obtain ⟨d, hd, ht⟩ := h.isPage p hp
    rw [dictAt_modify, hd]
    split
    · exact ⟨_, rfl, by rw [dget_dset_ne hk]; exact ht⟩
    · exact ⟨_, rfl, ht⟩

theorem PagesOk.add {b : Base} {root : Nat} {pages} (h : PagesOk b root pages) (d) :
    PagesOk (b.addDict d).2 root pages := by
  have key : ∀ id e, b.dictAt id = some e → (b.addDict d).2.dictAt id = some e := by
    intro id e he
    rw [dictAt_add_ne h.wf, he]
    have := dictAt_lt h.wf he
    omega
  refine ⟨h.wf.addDict _, h.nodup, ?_, h.notRoot, ?_⟩
  · obtain ⟨e, he⟩ := h.rootOk
    exact ⟨e, key _ _ he⟩
  · intro p hp
    obtain ⟨e, he, ht⟩ := h.isPage p hp
    exact ⟨e, key _ _ he, ht⟩

/-- the documents of the model: the catalog is object 1 -/
structure DocOk (s : PdfDoc) : Prop where
  pages : PagesOk s.base 1 s.pages

theorem docOk_op {s s' : PdfDoc} {o : DocOp} (h : DocOk s) (ho : s.op o = .ok s')
    (hk : ∀ id k v, o = .setEntry id k v → k ≠ kType) :
    DocOk s' ∧ s'.pages.map Prod.snd = s.pages.map Prod.snd ++
      (match o with | .addPage w hh => [(w, hh)] | _ => []) := by
  cases o with
  | addPage w hh =>
    cases ho
    refine ⟨⟨?_⟩, by simp [PdfDoc.addPage]⟩
    have h1 := h.pages.add [(kFilter, .bytes b!"/FlateDecode"), (kStream, .dict [])]
    have h2 := h1.add [(kType, .bytes b!"/Page"), (kContents, .ref (s.base.count : Nat)), (kResources, .dict [])]
    let b1 := (s.base.addDict [(kFilter, .bytes b!"/FlateDecode"), (kStream, .dict [])]).2
    have hnew : ∀ p ∈ s.pages, p.1 ≠ b1.count := by
      intro p hp e
      obtain ⟨d, hd, _⟩ := h1.isPage p hp
      have := dictAt_lt h1.wf hd
      exact Nat.ne_of_lt this.2 e
    refine ⟨h2.wf, ?_, h2.rootOk, ?_, ?_⟩
    · simp only [PdfDoc.addPage, List.map_append, List.map_cons, List.map_nil]
      rw [List.nodup_append]
      refine ⟨h.pages.nodup, by simp, ?_⟩
      intro a ha c hc
      simp only [List.mem_singleton] at hc
      subst hc
      obtain ⟨p, hp, rfl⟩ := List.mem_map.1 ha
      exact hnew p hp
    · simp only [PdfDoc.addPage, List.map_append, List.map_cons, List.map_nil, List.mem_append,
        List.mem_singleton, not_or]
      refine ⟨h.pages.notRoot, ?_⟩
      obtain ⟨d, hd⟩ := h1.rootOk
      have := dictAt_lt h1.wf hd
      exact Nat.ne_of_lt this.2
    · intro p hp
      rcases List.mem_append.1 hp with hp | hp
      · exact h2.isPage p hp
      · simp only [List.mem_singleton] at hp
        subst hp
        exact ⟨_, dictAt_add_self h1.wf _, rfl⟩
  | addObject d => cases ho; exact ⟨⟨h.pages.add d⟩, by simp⟩
  | setEntry id k v => cases ho; exact ⟨⟨h.pages.modify id k v (hk id k v rfl)⟩, by simp⟩
  | output =>
    simp only [PdfDoc.op, PdfDoc.outputPages] at ho
    split at ho
    · cases ho
    · rename_i hne
      obtain ⟨b', n, h1, h2, h3, h4, h5, h6, h7, h8⟩ := buildPages_ok h.pages hne 999
      rw [h1] at ho
      cases ho
      refine ⟨⟨h2, h.pages.nodup, ?_, h.pages.notRoot, ?_⟩, by simp⟩
      · obtain ⟨d, hd⟩ := h.pages.rootOk
        exact ⟨_, by rw [h6, hd]; rfl⟩
      · intro p hp
        obtain ⟨d, hd, ht⟩ := h.pages.isPage p hp
        refine ⟨_, by rw [h8 p hp, hd]; rfl, ?_⟩
        rw [dget_dset_ne (by decide), dget_dset_ne (by decide), ht]

/-- the sizes of the pages added by a history -/
def pageSizesOf : List DocOp → List (Obj × Obj)
  | [] => []
  | .addPage w h :: l => (w, h) :: pageSizesOf l
  | _ :: l => pageSizesOf l

theorem docOk_run : ∀ (ops : List DocOp) {s s' : PdfDoc}, DocOk s → s.run ops = .ok s' →
    (∀ id k v, .setEntry id k v ∈ ops → k ≠ kType) →
    DocOk s' ∧ s'.pages.map Prod.snd = s.pages.map Prod.snd ++ pageSizesOf ops := by
  intro ops
  induction ops with
  | nil => intro s s' h hr _; cases hr; exact ⟨h, by simp [pageSizesOf]⟩
  | cons o ops ih =>
    intro s s' h hr hk
    simp only [PdfDoc.run] at hr
    split at hr
    · cases hr
    · rename_i s1 h1
      obtain ⟨g1, g2⟩ := docOk_op h h1 fun id k v e => hk id k v (by simp [e])
      obtain ⟨g3, g4⟩ := ih g1 hr fun id k v e => hk id k v (by simp [e])
      refine ⟨g3, ?_⟩
      rw [g4, g2, List.append_assoc]
      cases o <;> simp [pageSizesOf]

theorem docOk_new (v : Str) : DocOk (PdfDoc.new v) := by
  refine ⟨⟨rfl, by simp [PdfDoc.new], ⟨_, rfl⟩, by simp [PdfDoc.new], by simp [PdfDoc.new]⟩⟩

/-- C44: after any history of a document (pages and objects added, entries changed, earlier outputs),
the page tree built by `output` contains exactly the pages, each once and in the order they were added,
with their sizes as media boxes; every `Count` is the number of leaves below and every `Parent` points to
the node that lists the page; the catalog points to the root of the tree. -/
theorem C44_page_tree (v : Str) (ops : List DocOp) (s : PdfDoc) (hr : (PdfDoc.new v).run ops = .ok s)
    (hk : ∀ id k v, .setEntry id k v ∈ ops → k ≠ .str c!"Type") (hne : pageSizesOf ops ≠ []) :
    ∃ s' n ids droot, s.outputPages = .ok s' ∧ s'.base.dictAt 1 = some droot ∧
      dget (.str c!"Pages") droot = some (.ref (n : Nat)) ∧
      PageNode s'.base.dictAt none n ids ∧ ids.Nodup ∧ ids = s.pages.map Prod.fst ∧
      ids.length = (pageSizesOf ops).length ∧
      ∀ p ∈ ids.zip (pageSizesOf ops), ∃ d, s'.base.dictAt p.1 = some d ∧
        dget (.str c!"MediaBox") d = some (.seq [.int 0, .int 0, p.2.1, p.2.2]) := by
  obtain ⟨h1, h2⟩ := docOk_run ops (docOk_new v) hr hk
  have h2' : s.pages.map Prod.snd = pageSizesOf ops := by simpa [PdfDoc.new] using h2
  have hne' : s.pages ≠ [] := by
    rintro e
    rw [e] at h2'
    exact hne h2'.symm
  obtain ⟨b', n, g1, g2, g3, g4, g5, g6, g7, g8⟩ := buildPages_ok h1.pages hne' 999
  obtain ⟨dr, hdr⟩ := h1.pages.rootOk
  refine ⟨{ s with base := b' }, n, s.pages.map Prod.fst, dset kPages (.ref n) dr, ?_, ?_, ?_, g5,
    h1.pages.nodup, rfl, ?_, ?_⟩
  · simp [PdfDoc.outputPages, hne', g1]
  · simp only [g6, hdr, Option.map_some]
  · exact dget_dset_self _ _ _
  · rw [← h2']; simp
  · intro p hp
    rw [← h2', List.zip_map'] at hp
    obtain ⟨q, hq, rfl⟩ := List.mem_map.1 hp
    obtain ⟨d, hd, _⟩ := h1.pages.isPage q hq
    refine ⟨_, by rw [g8 q hq, hd]; rfl, ?_⟩
    rw [show (Key.str c!"MediaBox") = kMediaBox from rfl, dget_dset_ne (by decide), dget_dset_self]

/-- C44: a document without pages is rejected. -/
theorem C44_no_pages_rejected (v : Str) (ops : List DocOp) (s : PdfDoc) (hr : (PdfDoc.new v).run ops = .ok s)
    (hk : ∀ id k v, .setEntry id k v ∈ ops → k ≠ .str c!"Type") (hne : pageSizesOf ops = []) :
    s.outputPages = .error .exception := by
  obtain ⟨_, h2⟩ := docOk_run ops (docOk_new v) hr hk
  have : s.pages = [] := by
    have : s.pages.map Prod.snd = [] := by simpa [PdfDoc.new, hne] using h2
    exact List.map_eq_nil_iff.1 this
  simp [PdfDoc.outputPages, this]

/-- fourteen pages, an output in between -/
example : ∃ s, (PdfDoc.new c!"1.5").run (List.replicate 8 (.addPage (.int 10) (.int 20)) ++
    [.output, .addObject [], .setEntry 3 kResources (.int 7)] ++ List.replicate 6 (.addPage (.int 5) (.int 5))) = .ok s ∧
    s.pages.length = 14 := ⟨_, rfl, rfl⟩

end Verif
