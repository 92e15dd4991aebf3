import Verif.Lemmas.PdfTrees
/-! C65: what a reader finds in the file of a complete document. -/
namespace Verif
open Spec

/-! ### The file and the table of dicts -/

theorem reads_file (flate : Bytes → Bytes) (b : Base) (u1 u2 : Bytes) (hw : b.Wf)
    (ht : b.trailer = [(.str c!"Root", .ref 1)]) (hread : ∀ o ∈ b.content, readable o.value = true)
    (hok : (b.output flate u1 u2).err = none) (hsmall : (b.output flate u1 u2).written.length < 10 ^ 10)
    (hu1 : 60 ∉ u1 ∧ 62 ∉ u1) (hu2 : 60 ∉ u2 ∧ 62 ∉ u2) :
    ∃ R, openFile (b.output flate u1 u2).written = some R ∧ refEntry b!"Root" R.trailer = some 1 ∧ Reads R b.dictAt ∧
      (∀ n d st, b.dictAt n = some d → dget kStream d = some st → dget kSkip d = none →
        ∃ D data raw, R.object n = some (.dict D, some data) ∧ streamData st = some raw ∧
          ∀ inflate, (∀ x, inflate (flate x) = x) → decodeStream inflate D data = some raw) ∧
      ∀ n d st, b.dictAt n = some d → dget kStream d = some st → (dget kSkip d).map truthy = some true →
        ∃ D data, R.object n = some (.dict D, some data) ∧ streamData st = some data := by
  obtain ⟨R, h1, -, -, h4, -, -, h6⟩ := read_back flate b u1 u2 [(b!"Root", .ref 1 0)] hw hok hsmall hu1 hu2
    (by rw [ht]; rfl) (by rw [ht]; rfl)
  have hobj : ∀ n d, b.dictAt n = some d → ∃ k, ∃ hk : k < b.content.length, n = k + 1 ∧ b.content[k].value = .dict d ∧
      readable (.dict d) = true := by
    intro n d hd
    cases n with
    | zero => cases hd
    | succ k =>
      simp only [Base.dictAt] at hd
      split at hd
      · rename_i i e hc
        cases hd
        obtain ⟨hk, hv⟩ := List.getElem?_eq_some_iff.1 hc
        have := hread _ (List.getElem_mem hk)
        rw [hv] at this
        exact ⟨k, hk, rfl, by rw [hv], this⟩
      · cases hd
  refine ⟨R, h1, ?_, ?_, ?_, ?_⟩
  · have := h4 c!"Root" (by decide) (by decide) (by decide)
    rw [ht] at this
    have e : latinBytes c!"Root" = b!"Root" := rfl
    rw [e] at this
    rw [refEntry, this]
    rfl
  · intro n d hd
    obtain ⟨k, hk, rfl, hv, hr⟩ := hobj n d hd
    simp only [readable] at hr
    cases hs : dget (.str c!"__stream__") d with
    | none =>
      rw [hs] at hr
      obtain ⟨p, hp⟩ := Option.isSome_iff_exists.1 hr
      obtain ⟨D, rfl, hD⟩ := meaning_dict hp
      refine ⟨D, ?_, .of_items hD⟩
      rw [PdfFile.dict, (h6 k hk).1 _ (by rw [hv]; exact hp)]
    | some st =>
      rw [hs] at hr
      obtain ⟨q, hq⟩ := Option.isSome_iff_exists.1 hr
      obtain ⟨D, data, raw, g1, -, -, g4, -⟩ := (h6 k hk).2 d st q hv hs hq
      refine ⟨D, by rw [PdfFile.dict, g1], fun x hx => g4 x hx.1 hx.2.1 hx.2.2.1 hx.2.2.2, fun x v hx hxv => ?_⟩
      refine meaningItems_dget _ _ hq (k := x) ?_
      rw [dget_filter, hxv]
      intro v
      simpa using ⟨hx.2.2.1, hx.2.2.2⟩
  · intro n d st hd hs hskip
    obtain ⟨k, hk, rfl, hv, hr⟩ := hobj n d hd
    have hs' : dget (.str c!"__stream__") d = some st := hs
    simp only [readable, hs'] at hr
    obtain ⟨q, hq⟩ := Option.isSome_iff_exists.1 hr
    obtain ⟨D, data, raw, g1, g2, -, -, g5⟩ := (h6 k hk).2 d st q hv hs' hq
    have hk' : dget (.str c!"__skip_filter__") d = none := hskip
    rw [hk', if_neg (by simp)] at g5
    exact ⟨D, data, raw, g1, g2, g5⟩
  · intro n d st hd hs hskip
    obtain ⟨k, hk, rfl, hv, hr⟩ := hobj n d hd
    have hs' : dget (.str c!"__stream__") d = some st := hs
    simp only [readable, hs'] at hr
    obtain ⟨q, hq⟩ := Option.isSome_iff_exists.1 hr
    obtain ⟨D, data, raw, g1, g2, -, -, g5⟩ := (h6 k hk).2 d st q hv hs' hq
    have hk' : (dget (.str c!"__skip_filter__") d).map truthy = some true := hskip
    rw [if_pos hk'] at g5
    subst g5
    exact ⟨D, data, g1, g2⟩

theorem DReads.items {D : List (Bytes × PObj)} {d : List (Key × Obj)} (h : DReads D d) {k : Str} {kb : Bytes} (hk : okKey k)
    (e : latinBytes k = kb) {l : List (Key × Obj)} (hd : dget (.str k) d = some (.dict l)) :
    ∃ L, meaningItems l = some L ∧ Spec.lookup kb D = some (.dict L) := by
  obtain ⟨p, hp, hl⟩ := h.val hk e hd
  obtain ⟨ps, rfl, hps⟩ := meaning_dict hp
  exact ⟨ps, hps, hl⟩

theorem dget_refs (name : Str) (l : List (Str × Nat)) :
    dget (.str name) (l.map fun q => (Key.str q.1, Obj.ref q.2)) = (dget name l).map fun n : Nat => .ref n := by
  induction l with
  | nil => rfl
  | cons q l ih =>
    simp only [List.map_cons, dget, ih, Key.str.injEq]
    split <;> rfl

theorem streamData_chunks (l : List (Nat × Bytes)) :
    streamData (.dict (l.map fun c => (Key.int c.1, Obj.bytes c.2))) = some (l.map Prod.snd).flatten := by
  simp only [streamData]
  induction l with
  | nil => rfl
  | cons c l ih => simp [ih]

theorem dget_map_snd {κ ν μ : Type} [DecidableEq κ] (f : ν → μ) (k : κ) (l : List (κ × ν)) :
    dget k (l.map fun q => (q.1, f q.2)) = (dget k l).map f := by
  induction l with
  | nil => rfl
  | cons q l ih =>
    simp only [List.map_cons, dget, ih]
    split <;> rfl

/-! ### The dict of a page -/

theorem dget_fill {num : Rat → Obj} {p : Page} {d : List (Key × Obj)} :
    dget kResources (p.fill num d) = some p.resources ∧
    (dget kAnnots d = none → dget kAnnots (p.fill num d) = if p.annots = [] then none else some (.seq (p.annots.map (Annot.obj num)))) ∧
    ∀ k, k ≠ kResources → k ≠ kAnnots → dget k (p.fill num d) = dget k d := by
  unfold Page.fill Page.setAnnots
  refine ⟨?_, ?_, ?_⟩
  · split
    · exact dget_dset_self _ _ _
    · rw [dget_dset_ne (by decide)]; exact dget_dset_self _ _ _
  · intro h
    split
    · rw [dget_dset_ne (by decide), h]
    · exact dget_dset_self _ _ _
  · intro k h1 h2
    split
    · exact dget_dset_ne (Ne.symm h1) _ _
    · rw [dget_dset_ne (Ne.symm h2)]; exact dget_dset_ne (Ne.symm h1) _ _

/-- the link a reader shows for an annotation of the document -/
def LinkOf (num : Rat → Obj) (s : PdfT) : Annot → Link → Prop
  | .link action rect, l => meaningList (rect.map num) = some l.rect ∧ ∃ u, dget u s.uris = some action ∧ l.action = .uri (latinBytes u)
  | .dest name rect, l => meaningList (rect.map num) = some l.rect ∧ l.action = .goto (latinBytes name)

theorem readLink_obj {num : Rat → Obj} {s : PdfT} {R : PdfFile} {tbl : Table} (hR : Reads R tbl)
    (hu : ∀ l n, dget l s.uris = some n → tbl n = some (actionDict l)) {a : Annot} {p : PObj} (hp : meaning (a.obj num) = some p)
    (ha : ∀ id r, a = .link id r → ∃ l, dget l s.uris = some id) : ∃ l, R.readLink p = some l ∧ LinkOf num s a l := by
  cases a with
  | link id r =>
    obtain ⟨D, rfl, hD⟩ := meaning_dict hp
    have h := DReads.of_items hD
    obtain ⟨l, hl⟩ := ha id r rfl
    obtain ⟨A, hA, hAr⟩ := hR _ _ (hu l id hl)
    obtain ⟨rs, g1, g2⟩ := h.seq (k := c!"Rect") (kb := b!"Rect") (by decide) rfl rfl
    have t1 := h.isName (k := c!"Type") (kb := b!"Type") (by decide) rfl rfl (w := b!"Annot") (y := b!"Annot") rfl
    have t2 := h.isName (k := c!"Subtype") (kb := b!"Subtype") (by decide) rfl rfl (w := b!"Link") (y := b!"Link") rfl
    have t3 := h.none (k := c!"Dest") (kb := b!"Dest") (by decide) rfl rfl
    have t4 := h.ref (k := c!"A") (kb := b!"A") (n := id) (by decide) rfl rfl
    have t5 := hAr.isName (k := c!"S") (kb := b!"S") (by decide) rfl rfl (w := b!"URI") (y := b!"URI") rfl
    have t6 := (hAr.str (k := c!"URI") (kb := b!"URI") (by decide) rfl (s := l) rfl).1
    refine ⟨⟨rs, .uri (latinBytes l)⟩, ?_, g1, l, hl, rfl⟩
    simp [PdfFile.readLink, t1, t2, g2, t3, t4, hA, t5, t6]
  | dest name r =>
    obtain ⟨D, rfl, hD⟩ := meaning_dict hp
    have h := DReads.of_items hD
    obtain ⟨rs, g1, g2⟩ := h.seq (k := c!"Rect") (kb := b!"Rect") (by decide) rfl rfl
    have t1 := h.isName (k := c!"Type") (kb := b!"Type") (by decide) rfl rfl (w := b!"Annot") (y := b!"Annot") rfl
    have t2 := h.isName (k := c!"Subtype") (kb := b!"Subtype") (by decide) rfl rfl (w := b!"Link") (y := b!"Link") rfl
    have t3 := (h.str (k := c!"Dest") (kb := b!"Dest") (by decide) rfl (s := name) rfl).1
    refine ⟨⟨rs, .goto (latinBytes name)⟩, ?_, g1, rfl⟩
    simp [PdfFile.readLink, t1, t2, g2, t3]

theorem readLinks_list {num : Rat → Obj} {s : PdfT} {R : PdfFile} {tbl : Table} (hR : Reads R tbl)
    (hu : ∀ l n, dget l s.uris = some n → tbl n = some (actionDict l)) : ∀ (l : List Annot) (ps : List PObj),
    meaningList (l.map (Annot.obj num)) = some ps → (∀ id r, Annot.link id r ∈ l → ∃ u, dget u s.uris = some id) →
    ∃ ls, allSome R.readLink ps = some ls ∧ List.Forall₂ (LinkOf num s) l ls
  | [], ps, h, _ => by
    cases h
    exact ⟨[], rfl, .nil⟩
  | a :: l, ps, h, ha => by
    simp only [List.map_cons, meaningList] at h
    cases h1 : meaning (a.obj num) with
    | none => rw [h1] at h; cases h
    | some p =>
      cases h2 : meaningList (l.map (Annot.obj num)) with
      | none => rw [h1, h2] at h; cases h
      | some qs =>
        rw [h1, h2] at h
        cases h
        obtain ⟨x, hx, hx'⟩ := readLink_obj hR hu h1 fun id r e => ha id r (by rw [e]; simp)
        obtain ⟨xs, hxs, hxs'⟩ := readLinks_list hR hu l qs h2 fun id r e => ha id r (by simp [e])
        exact ⟨x :: xs, by simp [allSome, hx, hxs], .cons hx' hxs'⟩

theorem resource_part {D : List (Bytes × PObj)} {p : Page} (hr : ∀ {r}, p.resources = r → ∃ L, (∃ l, r = .dict l ∧ meaningItems l = some L) ∧
      Spec.lookup b!"Resources" D = some (.dict L)) {name : Str} (hn : (name.all fun c => decide (c.toNat < 256)) = true) :
    resource b!"Font" (latinBytes name) D = dget name p.fonts ∧ resource b!"XObject" (latinBytes name) D = dget name p.xres := by
  obtain ⟨L, ⟨l, hl, hL⟩, hD⟩ := hr rfl
  simp only [Page.resources, Obj.dict.injEq] at hl
  subst hl
  have h := DReads.of_items hL
  have hname : ∀ (q : List (Str × Nat)) (M : List (Bytes × PObj)), meaningItems (q.map fun q => (Key.str q.1, Obj.ref q.2)) = some M →
      refEntry (latinBytes name) M = dget name q := by
    intro q M hM
    rw [refEntry, lookup_meaning hn _ _ hM, dget_refs]
    cases dget name q <;> rfl
  constructor
  · simp only [resource, hD]
    by_cases hf : p.fonts = []
    · have : dget (.str c!"Font") (resPart kFont p.fonts ++ resPart kXObject p.xres) = none := by
        simp only [resPart, hf, if_true, List.nil_append]
        split <;> rfl
      rw [h.none (k := c!"Font") (kb := b!"Font") (by decide) rfl this, hf]
      rfl
    · have : dget (.str c!"Font") (resPart kFont p.fonts ++ resPart kXObject p.xres) =
          some (.dict (p.fonts.map fun q => (.str q.1, .ref q.2))) := by
        simp only [resPart, hf, if_false]
        rfl
      obtain ⟨M, hM, hM'⟩ := h.items (k := c!"Font") (kb := b!"Font") (by decide) rfl this
      simp only [hM']
      exact hname _ _ hM
  · simp only [resource, hD]
    by_cases hx : p.xres = []
    · have : dget (.str c!"XObject") (resPart kFont p.fonts ++ resPart kXObject p.xres) = none := by
        simp only [resPart, hx, if_true, List.append_nil]
        split <;> rfl
      rw [h.none (k := c!"XObject") (kb := b!"XObject") (by decide) rfl this, hx]
      rfl
    · have : dget (.str c!"XObject") (resPart kFont p.fonts ++ resPart kXObject p.xres) =
          some (.dict (p.xres.map fun q => (.str q.1, .ref q.2))) := by
        simp only [resPart, hx, if_false]
        split <;> rfl
      obtain ⟨M, hM, hM'⟩ := h.items (k := c!"XObject") (kb := b!"XObject") (by decide) rfl this
      simp only [hM']
      exact hname _ _ hM

/-- what a reader finds of a page -/
structure PageShown (num : Rat → Obj) (flate : Bytes → Bytes) (s : PdfT) (R : PdfFile) (pg : Page) : Prop where
  shown : ∃ D, R.dict pg.objId = some D ∧
    -- its size
    (∃ w h, meaning (num pg.width) = some w ∧ meaning (num pg.height) = some h ∧
      Spec.lookup b!"MediaBox" D = some (.arr [.int 0, .int 0, w, h])) ∧
    -- its contents, for every decoder of the filter
    (∀ inflate, (∀ x, inflate (flate x) = x) → R.contents inflate D = some (pg.stream.map Prod.snd).flatten) ∧
    -- its fonts and images
    (∀ name : Str, (name.all fun c => decide (c.toNat < 256)) = true →
      resource b!"Font" (latinBytes name) D = dget name pg.fonts ∧ resource b!"XObject" (latinBytes name) D = dget name pg.xres) ∧
    -- its links
    ∃ ls, R.links D = some ls ∧ List.Forall₂ (LinkOf num s) pg.annots ls

theorem page_shown {num : Rat → Obj} {flate : Bytes → Bytes} {s : PdfT} {R : PdfFile} {tbl : Table} (hR : Reads R tbl)
    (hstream : ∀ n d st, tbl n = some d → dget kStream d = some st → dget kSkip d = none →
        ∃ D data raw, R.object n = some (.dict D, some data) ∧ streamData st = some raw ∧
          ∀ inflate, (∀ x, inflate (flate x) = x) → decodeStream inflate D data = some raw)
    (hu : ∀ l n, dget l s.uris = some n → tbl n = some (actionDict l)) {n : Nat} {pg : Page}
    (h1 : tbl pg.objId = some (pg.dict num n)) (h2 : tbl (pg.objId - 1) = some pg.streamDict)
    (hl : ∀ id r, Annot.link id r ∈ pg.annots → ∃ l, dget l s.uris = some id) : PageShown num flate s R pg := by
  obtain ⟨D, hD, h⟩ := hR _ _ h1
  obtain ⟨f1, f2, f3⟩ := dget_fill (num := num) (p := pg) (d := freshPage (pg.objId - 1))
  have f2 := f2 rfl
  have e1 : ∀ k, k ≠ kParent → k ≠ kMediaBox → dget k (pg.dict num n) = dget k (pg.fill num (freshPage (pg.objId - 1))) := by
    intro k k1 k2
    exact (dget_dset_ne (Ne.symm k1) _ _).trans (dget_dset_ne (Ne.symm k2) _ _)
  refine ⟨D, hD, ?_, ?_, ?_, ?_⟩
  · have hm : dget (.str c!"MediaBox") (pg.dict num n) = some (.seq [.int 0, .int 0, num pg.width, num pg.height]) :=
      (dget_dset_ne (k := kParent) (k' := kMediaBox) (by decide) _ _).trans (dget_dset_self _ _ _)
    obtain ⟨ps, g1, g2⟩ := h.seq (k := c!"MediaBox") (kb := b!"MediaBox") (by decide) rfl hm
    simp only [meaningList, meaning] at g1
    cases hw : meaning (num pg.width) with
    | none => rw [hw] at g1; simp at g1
    | some w =>
      cases hh : meaning (num pg.height) with
      | none => rw [hw, hh] at g1; simp at g1
      | some w' =>
        rw [hw, hh] at g1
        cases g1
        exact ⟨w, w', rfl, rfl, g2⟩
  · intro inflate hinf
    obtain ⟨E, data, raw, g1, g2, g3⟩ := hstream _ _ pg.chunks h2 (dget_dset_self _ _ _) rfl
    have hc : dget (.str c!"Contents") (pg.dict num n) = some (.ref (pg.objId - 1 : Nat)) :=
      (e1 kContents (by decide) (by decide)).trans ((f3 kContents (by decide) (by decide)).trans rfl)
    rw [Page.chunks, streamData_chunks] at g2
    cases g2
    simp only [PdfFile.contents, h.ref (k := c!"Contents") (kb := b!"Contents") (by decide) rfl hc, Option.bind_some, g1, g3 inflate hinf]
  · intro name hn
    refine resource_part (p := pg) ?_ hn
    rintro r rfl
    have hr : dget (.str c!"Resources") (pg.dict num n) = some pg.resources :=
      (e1 kResources (by decide) (by decide)).trans f1
    obtain ⟨L, g1, g2⟩ := h.items (k := c!"Resources") (kb := b!"Resources") (by decide) rfl hr
    exact ⟨L, ⟨_, rfl, g1⟩, g2⟩
  · have ha := (e1 kAnnots (by decide) (by decide)).trans f2
    by_cases he : pg.annots = []
    · rw [if_pos he] at ha
      refine ⟨[], ?_, by rw [he]; exact .nil⟩
      simp only [PdfFile.links, h.none (k := c!"Annots") (kb := b!"Annots") (by decide) rfl ha]
    · rw [if_neg he] at ha
      obtain ⟨ps, g1, g2⟩ := h.seq (k := c!"Annots") (kb := b!"Annots") (by decide) rfl ha
      obtain ⟨ls, g3, g4⟩ := readLinks_list hR hu pg.annots ps g1 hl
      exact ⟨ls, by simp only [PdfFile.links, g2, g3], g4⟩

theorem meaningList_mem : ∀ (l : List Obj) (ps : List PObj), meaningList l = some ps → ∀ o ∈ l, ∃ q, meaning o = some q
  | [], _, _, _, h => by cases h
  | a :: l, ps, h, o, ho => by
    simp only [meaningList] at h
    cases h1 : meaning a with
    | none => rw [h1] at h; cases h
    | some q =>
      cases h2 : meaningList l with
      | none => rw [h1, h2] at h; cases h
      | some qs =>
        rcases List.mem_cons.1 ho with rfl | ho
        · exact ⟨q, h1⟩
        · exact meaningList_mem l qs h2 o ho

mutual
theorem names_readable {R : PdfFile} {tbl : Table} (hR : Reads R tbl) : ∀ {id es}, NBody tbl id es → ∀ e ∈ es, ∃ q, meaning e.2 = some q
  | _, es, .leaf h1 h2 => by
    intro e he
    obtain ⟨D, -, h⟩ := hR _ _ h1
    obtain ⟨ps, g, -⟩ := h.seq (k := c!"Names") (kb := b!"Names") (by decide) rfl h2
    exact meaningList_mem _ ps g e.2 (List.mem_flatten.2 ⟨[.str e.1, e.2], List.mem_map_of_mem he, by simp⟩)
  | _, _, .inner _ _ _ h4 => by
    have g := kids_readable hR h4
    intro e he
    obtain ⟨l, hl, hel⟩ := List.mem_flatten.1 he
    exact g l hl e hel
theorem kids_readable {R : PdfFile} {tbl : Table} (hR : Reads R tbl) : ∀ {ks ps}, NKids tbl ks ps → ∀ l ∈ ps, ∀ e ∈ l, ∃ q, meaning e.2 = some q
  | _, _, .nil => by intro l h; cases h
  | _, _, .cons _ _ _ _ h5 h6 => by
    have g1 := names_readable hR h5
    have g2 := kids_readable hR h6
    intro l hl e he
    rcases List.mem_cons.1 hl with rfl | hl
    · exact g1 e he
    · exact g2 l hl e he
end

/-- what a reader finds in the file of a document whose objects are as they should be -/
theorem document_read {E : PdfEnv} {s : PdfD} (hi : OutInv s.doc) {level : Int} {b : Base} (hb : s.doc.withTrees E.num level = .ok b)
    (hread : ∀ o ∈ b.content, readable o.value = true) (flate : Bytes → Bytes) (u1 u2 : Bytes)
    (hok : (b.output flate u1 u2).err = none) (hsmall : (b.output flate u1 u2).written.length < 10 ^ 10)
    (hu1 : 60 ∉ u1 ∧ 62 ∉ u1) (hu2 : 60 ∉ u2 ∧ 62 ∉ u2) :
    ∃ R N, openFile (b.output flate u1 u2).written = some R ∧
      (∀ depth, N ≤ depth → R.pages depth = some (s.doc.pages.map Page.objId)) ∧
      (∀ pg ∈ s.doc.pages, PageShown E.num flate s.doc R pg) ∧
      (∀ depth, N ≤ depth → ∀ label : Str, (label.all fun c => decide (c.toNat < 256)) = true →
        match dget label s.doc.dests with
        | none => R.dest depth (latinBytes label) = none
        | some d => d.page ∈ s.doc.pages.map Page.objId ∧ ∃ x y z, meaning (E.num d.x) = some x ∧ meaning (E.num d.y) = some y ∧
            meaning (E.num d.zoom) = some z ∧
            R.dest depth (latinBytes label) = some (.arr [.ref d.page 0, .name b!"XYZ", x, y, z])) ∧
      ∀ depth, N ≤ depth → R.outline depth = some (Spec.Outline.bookmarkList s.doc.outlines) := by
  have hne : s.doc.pages ≠ [] := by
    intro e
    rw [PdfT.withTrees, if_pos (by rw [e]; rfl)] at hb
    cases hb
  obtain ⟨b', hb', ht⟩ := trees_ok (num := E.num) (level := level) hi hne
  rw [hb'] at hb
  cases hb
  obtain ⟨R, r1, r2, r3, r4, -⟩ := reads_file flate b u1 u2 ht.wf ht.trailer hread hok hsmall hu1 hu2
  obtain ⟨dc, c1, c2, ⟨n, c3, c4, c5⟩, c6, c7⟩ := ht.catalog
  obtain ⟨C, hC, hr⟩ := r3 _ _ c1
  have hcat : R.catalog = some C := by
    simp only [PdfFile.catalog, r2, Option.bind_some, hC,
      hr.isName (k := c!"Type") (kb := b!"Type") (by decide) rfl c2 (w := b!"Catalog") (y := b!"Catalog") rfl]
    simp
  obtain ⟨N1, hN1⟩ := leaves_read r3 c4
  have hdest : ∃ N, ∀ depth, N ≤ depth → ∀ label : Str, (label.all fun c => decide (c.toNat < 256)) = true →
      R.dest depth (latinBytes label) = ((dget label s.doc.dests).map (PDest.obj E.num)).bind meaning ∧
      ∀ d, dget label s.doc.dests = some d → ∃ q, meaning (d.obj E.num) = some q := by
    rcases c6 with ⟨e, h⟩ | ⟨m, es, h, hb, hs, hg⟩
    · refine ⟨0, fun depth _ label hl => ?_⟩
      simp only [PdfFile.dest, hcat, hr.none (k := c!"Names") (kb := b!"Names") (by decide) rfl h, e]
      exact ⟨rfl, fun d hd => by cases hd⟩
    · obtain ⟨N, hN⟩ := lookup_body hb hs
      refine ⟨N, fun depth hd label hl => ?_⟩
      obtain ⟨M, hM, hM'⟩ := hr.items (k := c!"Names") (kb := b!"Names") (by decide) rfl h
      have hM2 := DReads.of_items hM
      have hlook : nameLookup b.dictAt depth m label = (dget label s.doc.dests).map (PDest.obj E.num) := by
        rw [hN depth hd label, hg label, dget_map_snd]
      have hfind := findName_read r3 hl depth hb
      rw [hlook] at hfind
      have hdst : R.dest depth (latinBytes label) = R.findName depth m (latinBytes label) := by
        simp only [PdfFile.dest, hcat, hM', hM2.ref (k := c!"Dests") (kb := b!"Dests") (n := m) (by decide) rfl rfl, Option.bind_some]
      refine ⟨hdst.trans hfind, fun d hd => ?_⟩
      exact names_readable r3 hb (label, d.obj E.num) (dget_mem (by rw [hg label, dget_map_snd, hd]; rfl))
  obtain ⟨N2, hN2⟩ := hdest
  have hout : ∃ N, ∀ depth, N ≤ depth → R.outline depth = some (Spec.Outline.bookmarkList s.doc.outlines) := by
    rcases c7 with ⟨e, h⟩ | ⟨m, first, last, dn, o1, o2, o3, o4, o5⟩
    · refine ⟨0, fun depth _ => ?_⟩
      simp only [PdfFile.outline, hcat, hr.refNone (k := c!"Outlines") (kb := b!"Outlines") (by decide) rfl h, e]
      rfl
    · obtain ⟨N, hN⟩ := sibs_read r3 o5
      obtain ⟨O, hO, hOr⟩ := r3 _ _ o2
      refine ⟨N, fun depth hd => ?_⟩
      simp only [PdfFile.outline, hcat, hr.ref (k := c!"Outlines") (kb := b!"Outlines") (by decide) rfl o1, hO,
        hOr.ref (k := c!"First") (kb := b!"First") (by decide) rfl o3, hOr.ref (k := c!"Last") (kb := b!"Last") (by decide) rfl o4]
      exact hN depth hd
  obtain ⟨N3, hN3⟩ := hout
  refine ⟨R, max N1 (max N2 N3), r1, fun depth hd => ?_, fun pg hpg => ?_, fun depth hd label hl => ?_,
    fun depth hd => hN3 depth (by omega)⟩
  · simp only [PdfFile.pages, hcat, hr.ref (k := c!"Pages") (kb := b!"Pages") (by decide) rfl c3, Option.bind_some]
    exact hN1 depth (by omega)
  · exact page_shown r3 r4 ht.uris (c5 pg hpg).1 (c5 pg hpg).2 (hi.links pg hpg)
  · obtain ⟨g1, g2⟩ := hN2 depth (by omega) label hl
    cases hd : dget label s.doc.dests with
    | none => rw [hd] at g1; exact g1
    | some d =>
      refine ⟨hi.destPage _ (dget_mem hd), ?_⟩
      obtain ⟨q, hq⟩ := g2 d hd
      rw [hd] at g1
      simp only [Option.map_some, Option.bind_some] at g1
      rw [hq] at g1
      obtain ⟨ps, rfl, hps⟩ := meaning_seq hq
      simp only [meaningList] at hps
      cases hx : meaning (E.num d.x) with
      | none => rw [hx] at hps; simp at hps
      | some x =>
        cases hy : meaning (E.num d.y) with
        | none => rw [hx, hy] at hps; simp at hps
        | some y =>
          cases hz : meaning (E.num d.zoom) with
          | none => rw [hx, hy, hz] at hps; simp at hps
          | some z =>
            rw [hx, hy, hz] at hps
            have e1 : meaning (.ref (d.page : Int)) = some (.ref d.page 0) := rfl
            have e2 : meaning (.bytes b!"/XYZ") = some (.name b!"XYZ") := rfl
            rw [e1, e2] at hps
            cases hps
            exact ⟨x, y, z, rfl, rfl, rfl, g1⟩

/-- an object that is no page and not the catalog is read as it was added -/
theorem object_read {E : PdfEnv} {s : PdfD} (hi : OutInv s.doc) {level : Int} {b : Base} (hb : s.doc.withTrees E.num level = .ok b)
    (hread : ∀ o ∈ b.content, readable o.value = true) (flate : Bytes → Bytes) (u1 u2 : Bytes)
    (hok : (b.output flate u1 u2).err = none) (hsmall : (b.output flate u1 u2).written.length < 10 ^ 10)
    (hu1 : 60 ∉ u1 ∧ 62 ∉ u1) (hu2 : 60 ∉ u2 ∧ 62 ∉ u2) {R : PdfFile} (hR : openFile (b.output flate u1 u2).written = some R)
    {n : Nat} {d : List (Key × Obj)} (hd : s.doc.base.dictAt n = some d) (h1 : d ≠ freshCatalog) (h2 : d ≠ freshStream) (h3 : ∀ m, d ≠ freshPage m) :
    ∃ D, R.dict n = some D ∧ DReads D d ∧ ∀ st, dget kStream d = some st → (dget kSkip d).map truthy = some true →
      ∃ data, R.object n = some (.dict D, some data) ∧ streamData st = some data := by
  have hne : s.doc.pages ≠ [] := by
    intro e
    rw [PdfT.withTrees, if_pos (by rw [e]; rfl)] at hb
    cases hb
  obtain ⟨b', hb', ht⟩ := trees_ok (num := E.num) (level := level) hi hne
  rw [hb'] at hb
  cases hb
  obtain ⟨R', r1, -, r3, -, r5⟩ := reads_file flate b u1 u2 ht.wf ht.trailer hread hok hsmall hu1 hu2
  rw [hR] at r1
  cases r1
  have hk : b.dictAt n = some d := by
    refine ht.kept n d hd ?_ ?_
    · rintro rfl
      rw [hi.catalog] at hd
      cases hd
      exact h1 rfl
    · intro p hp
      have := hi.page p.objId (List.mem_map_of_mem hp)
      constructor <;> rintro rfl
      · rw [this.1] at hd
        cases hd
        exact h3 _ rfl
      · rw [this.2] at hd
        cases hd
        exact h2 rfl
  obtain ⟨D, d1, d2⟩ := r3 n d hk
  refine ⟨D, d1, d2, ?_⟩
  intro st hst hskip
  obtain ⟨D', data, e1, e2⟩ := r5 n d st hk hst hskip
  rw [PdfFile.dict, e1] at d1
  cases d1
  exact ⟨data, e1, e2⟩

/-- **C65.** Take any document made by any sequence of operations. If every value in it can be written, the
file of `PDF.output` opens in a reader, which finds: exactly the pages that were added, in their order, each
with its size, its contents, its fonts and images and its links; for every label the place it was
registered for last, on one of these pages, and nothing for other labels; and the outline. -/
theorem C65_document {E : PdfEnv} {F : NumFmt} {p p' : FProc} {version : Str} {ops : List PdfOp} {s : PdfD}
    (hist : PdfD.history E F p version ops = .ok (p', s)) {level : Int} {b : Base} (hb : s.doc.withTrees E.num level = .ok b)
    (hread : ∀ o ∈ b.content, readable o.value = true) (flate : Bytes → Bytes) (u1 u2 : Bytes)
    (hok : (b.output flate u1 u2).err = none) (hsmall : (b.output flate u1 u2).written.length < 10 ^ 10)
    (hu1 : 60 ∉ u1 ∧ 62 ∉ u1) (hu2 : 60 ∉ u2 ∧ 62 ∉ u2) :
    ∃ R N, openFile (b.output flate u1 u2).written = some R ∧
      (∀ depth, N ≤ depth → R.pages depth = some (s.doc.pages.map Page.objId)) ∧
      (∀ pg ∈ s.doc.pages, PageShown E.num flate s.doc R pg) ∧
      (∀ depth, N ≤ depth → ∀ label : Str, (label.all fun c => decide (c.toNat < 256)) = true →
        match dget label s.doc.dests with
        | none => R.dest depth (latinBytes label) = none
        | some d => d.page ∈ s.doc.pages.map Page.objId ∧ ∃ x y z, meaning (E.num d.x) = some x ∧ meaning (E.num d.y) = some y ∧
            meaning (E.num d.zoom) = some z ∧
            R.dest depth (latinBytes label) = some (.arr [.ref d.page 0, .name b!"XYZ", x, y, z])) ∧
      ∀ depth, N ≤ depth → R.outline depth = some (Spec.Outline.bookmarkList s.doc.outlines) :=
  document_read (history_inv hist) hb hread flate u1 u2 hok hsmall hu1 hu2

/-- The output of a document with pages gets as far as writing the objects, ... -/
theorem C65_trees_built {E : PdfEnv} {F : NumFmt} {p p' : FProc} {version : Str} {ops : List PdfOp} {s : PdfD}
    (hist : PdfD.history E F p version ops = .ok (p', s)) (hne : s.doc.pages ≠ []) (level : Int) (flate : Bytes → Bytes) (u1 u2 : Bytes) :
    ∃ b, s.doc.withTrees E.num level = .ok b ∧ s.doc.output E.num level flate u1 u2 = .ok (b.output flate u1 u2) := by
  obtain ⟨b, hb, -⟩ := trees_ok (num := E.num) (level := level) (history_inv hist) hne
  exact ⟨b, hb, by rw [PdfT.output, hb]; rfl⟩

/-- ... that of a document without pages is refused and nothing is written. -/
theorem C65_no_pages (num : Rat → Obj) (level : Int) (flate : Bytes → Bytes) (u1 u2 : Bytes) (s : PdfT) (h : s.pages = []) :
    s.output num level flate u1 u2 = .error .exception := by
  rw [PdfT.output, PdfT.withTrees, if_pos (by rw [h]; rfl)]
  rfl

/-! ### An example -/

private def ex65E : PdfEnv := ⟨fun _ => none, fun x => .int x.num, fun _ => some (1, c!"Title", c!"l"), id⟩

/-- two pages: a text with a link and a label; a text with a reference to the label and an outline -/
private def ex65Ops : List PdfOp :=
  [.page 100 200 10 10 10 10,
   .text 10 20 50 10 c!" (x)Tj" [] [(c!"Helvetica", c!"n")] [(c!"$uri:http://a", [(1, 2, 3, 4)]), (c!"$label:l", [(1, 2, 3, 4)])] c!"bottom",
   .page 300 400 10 10 10 10,
   .image ⟨c!"a.jpg", 40, 20, [(kType, .bytes b!"/XObject")]⟩ (some 5) (some 50) none (some 30) c!"next",
   .text 10 30 50 10 c!" (y)Tj" [] [] [(c!"$ref:l", [(1, 2, 3, 4)]), (c!"$outline:x", [(1, 2, 3, 4)])] c!"bottom"]

private def ex65 : Except PyErr Base :=
  match PdfD.history ex65E sampleFmt ⟨[], []⟩ c!"1.5" ex65Ops with
  | .error e => .error e
  | .ok r => r.2.doc.withTrees ex65E.num 1

private def ex65File : Option PdfFile :=
  match ex65 with
  | .error _ => none
  | .ok b => openFile (b.output id b!"00" b!"11").written

/-- The hypotheses of the theorem are met by it, ... -/
example : (match ex65 with
    | .error _ => false
    | .ok b => b.content.all (fun o => readable o.value) && ((b.output id b!"00" b!"11").err = none) &&
      decide ((b.output id b!"00" b!"11").written.length < 10 ^ 10)) = true := by decide +kernel

/-- ... and the file read, by computation. -/
example : (ex65File.bind fun R => R.pages 3) = some [4, 7] := by decide +kernel
example : (ex65File.bind fun R => (R.dict 4).bind fun D => R.contents id D) = some b!" BT 1 0 0 1 10 20 Tm (x)Tj ET" := by decide +kernel
example : (ex65File.bind fun R => (R.dict 4).bind fun D => resource b!"Font" b!"F1" D) = some 2 := by decide +kernel
example : (ex65File.bind fun R => (R.dict 7).bind fun D => resource b!"XObject" b!"Im0" D) = some 8 := by decide +kernel
example : (ex65File.bind fun R => (R.dict 4).bind fun D => (R.links D).map fun l => l.map Link.action) = some [.uri b!"http://a"] := by
  decide +kernel
example : (ex65File.bind fun R => (R.dict 7).bind fun D => (R.links D).map fun l => l.map Link.action) = some [.goto b!"l"] := by
  decide +kernel
example : (ex65File.bind fun R => (R.dest 3 b!"l").bind fun
    | .arr (x :: _) => x.target
    | _ => none) = some 4 := by decide +kernel
example : (ex65File.map fun R => (R.dest 3 b!"m").isNone) = some true := by decide +kernel
example : (ex65File.bind fun R => (R.outline 3).bind fun
    | [.mk t l ks] => some (t, l, ks.length)
    | _ => none) = some (b!"Title", b!"l", 0) := by decide +kernel

end Verif
