import Verif.Spec.Links
import Verif.Lemmas.Table
import Verif.Props.C42_Fonts
/-! C52: links, references and labels of placed paragraphs. -/
namespace Verif
open Spec

/-- what happens to a document: pages, objects, and paragraphs placed on pages -/
inductive PutOp
  | newPage (w h top bottom left right : Rat)
  | addObject (d : List (Key × Obj))
  | put (i : Nat) (x y width height : Rat) (text graphics : Str) (used : List FKey) (ids : List (Str × List IdRect)) (move : Str)

/-- a document with the process, and the paragraphs placed so far -/
structure PutSt where
  proc : FProc
  doc : PdfT
  puts : List Put

def PutSt.op (E : PdfEnv) (F : NumFmt) (w : PutSt) : PutOp → Except PyErr PutSt
  | .newPage a b c d e f => .ok { w with doc := w.doc.addPage a b c d e f }
  | .addObject d => .ok { w with doc := { w.doc with base := (w.doc.base.addDict d).2 } }
  | .put i x y width height text graphics used ids move =>
    match w.doc.pages[i]? with
    | none => .error .indexError
    | some pg =>
      match ({ w.doc with pageIndex := i } : PdfT).addText E F w.proc x y width height text graphics used ids move with
      | .error e => .error e
      | .ok (p, doc) => .ok ⟨p, doc, w.puts ++ [⟨i, pg.objId, pg.width, x, y, ids⟩]⟩

def PutSt.run (E : PdfEnv) (F : NumFmt) : List PutOp → PutSt → Except PyErr PutSt
  | [], w => .ok w
  | o :: l, w => match w.op E F o with
    | .error e => .error e
    | .ok w' => w'.run E F l

/-- a new document -/
def PutSt.start (E : PdfEnv) (p : FProc) (version : Str) : Except PyErr PutSt :=
  match PdfT.new E p version with
  | .error e => .error e
  | .ok (p, s) => .ok ⟨p, s, []⟩

/-- the dict of the action of a link -/
def actionDict (link : Str) : List (Key × Obj) :=
  [(kType, .bytes b!"/Action"), (.str c!"S", .bytes b!"/URI"), (.str c!"URI", .str link)]

def isAction (d : List (Key × Obj)) : Prop := dget kType d = some (.bytes b!"/Action")

/-- the action of a link in a document -/
def PdfT.action (s : PdfT) (link : Str) : Nat := (dget link s.uris).getD 0

/-! ### Parts that leave annotations alone -/

structure Quiet (s s' : PdfT) : Prop where
  uris : s'.uris = s.uris
  dests : s'.dests = s.dests
  grows : Grows s.base s'.base
  acts : ∀ id d, s'.base.dictAt id = some d → isAction d → s.base.dictAt id = some d
  pages : s'.pages.map (fun p => (p.annots, p.objId, p.width)) = s.pages.map fun p => (p.annots, p.objId, p.width)
  index : s'.pageIndex = s.pageIndex

theorem Quiet.refl {s : PdfT} (h : s.base.Wf) : Quiet s s :=
  ⟨rfl, rfl, ⟨h, le_refl _, fun _ _ h => h⟩, fun _ _ h _ => h, rfl, rfl⟩

theorem Quiet.trans {a b c : PdfT} (h : Quiet a b) (h' : Quiet b c) : Quiet a c :=
  ⟨h'.uris.trans h.uris, h'.dests.trans h.dests, h.grows.trans h'.grows, fun id d hd hf => h.acts id d (h'.acts id d hd hf) hf,
    h'.pages.trans h.pages, h'.index.trans h.index⟩

theorem map_modify_same {α β : Type} (g : α → β) (f : α → α) (hf : ∀ a, g (f a) = g a) (l : List α) (i : Nat) :
    (l.modify i f).map g = l.map g := by
  apply List.ext_getElem?
  intro j
  rw [List.getElem?_map, List.getElem?_map, List.getElem?_modify]
  cases l[j]? with
  | none => rfl
  | some a =>
    simp only [Option.map_eq_map, Option.map_some, Option.some.injEq]
    split
    · exact hf a
    · rfl

theorem Quiet.onPage {s : PdfT} (h : s.base.Wf) {f : Page → Page}
    (hf : ∀ p, ((f p).annots, (f p).objId, (f p).width) = (p.annots, p.objId, p.width)) : Quiet s (s.onPage f) :=
  ⟨rfl, rfl, ⟨h, le_refl _, fun _ _ h => h⟩, fun _ _ h _ => h, map_modify_same _ f hf _ _, rfl⟩

theorem acts_add {b : Base} (h : b.Wf) {d : List (Key × Obj)} (hd : ¬ isAction d) {id : Nat} {d'}
    (h' : (b.addDict d).2.dictAt id = some d') (ha : isAction d') : b.dictAt id = some d' := by
  rcases font_dicts_add h d h' with ⟨_, rfl⟩ | h'
  · exact absurd ha hd
  · exact h'

theorem addFontObj_quiet {num : Rat → Obj} {files : FontFiles} {b b' : Base} {f : Font} {id : Nat} (h : b.Wf)
    (ha : addFontObj num files b f = .ok (id, b')) :
    Grows b b' ∧ ∀ i d, b'.dictAt i = some d → isAction d → b.dictAt i = some d := by
  unfold addFontObj at ha
  cases hf : f.face with
  | std base =>
    rw [hf] at ha
    simp only [Except.ok.injEq] at ha
    have e2 : b' = (b.addDict (stdFontDict base)).2 := (congrArg Prod.snd ha).symm
    subst e2
    exact ⟨Grows.add h _, fun i d hi hd => acts_add h (by simp [isAction, stdFontDict, dget]) hi hd⟩
  | file path =>
    rw [hf] at ha
    simp only at ha
    cases ht : files path with
    | none => rw [ht] at ha; cases ha
    | some t =>
      rw [ht] at ha
      simp only [Except.ok.injEq] at ha
      unfold addTTFont at ha
      simp only at ha
      generalize hd1 : ([(kFilter, .bytes b!"/FlateDecode"), (kStream, .bytes t.bytes), (.str c!"Length1", .int t.bytes.length)] : List (Key × Obj)) = d1 at ha
      generalize hd2 : (dset (.str c!"FontFile2") (.ref (b.addDict d1).1)
        ((kType, .bytes b!"/FontDescriptor") :: (.str c!"FontName", nameBytes t.name) :: t.descriptor) : List (Key × Obj)) = d2 at ha
      generalize hd3 : ([(kType, .bytes b!"/Font"), (.str c!"FontDescriptor", .ref ((b.addDict d1).2.addDict d2).1), (kBaseFont, nameBytes t.name),
        (kSubtype, .bytes b!"/CIDFontType2"), (.str c!"CIDToGIDMap", .bytes b!"/Identity"),
        (.str c!"CIDSystemInfo", .dict [(.str c!"Registry", .str c!"Adobe"), (.str c!"Ordering", .str c!"Identity"),
          (.str c!"Supplement", .int 0)]),
        (.str c!"W", .seq ((charWidths t.glyphs).map (wObj num)))] : List (Key × Obj)) = d3 at ha
      generalize hd4 : ([(kFilter, .bytes b!"/FlateDecode"), (kStream, .bytes ((toUnicode t.cmap).map latin1))] : List (Key × Obj)) = d4 at ha
      generalize hd5 : ([(kType, .bytes b!"/Font"), (kSubtype, .bytes b!"/Type0"), (kBaseFont, nameBytes t.name),
        (kEncoding, .bytes b!"/Identity-H"), (.str c!"DescendantFonts", .seq [.ref (((b.addDict d1).2.addDict d2).2.addDict d3).1]),
        (.str c!"ToUnicode", .ref ((((b.addDict d1).2.addDict d2).2.addDict d3).2.addDict d4).1)] : List (Key × Obj)) = d5 at ha
      have w1 := h.addDict d1
      have w2 := w1.addDict d2
      have w3 := w2.addDict d3
      have w4 := w3.addDict d4
      have e2 : b' = (((((b.addDict d1).2.addDict d2).2.addDict d3).2.addDict d4).2.addDict d5).2 := (congrArg Prod.snd ha).symm
      rw [e2]
      refine ⟨(((((Grows.add h d1).trans (Grows.add w1 d2)).trans (Grows.add w2 d3)).trans (Grows.add w3 d4))).trans (Grows.add w4 d5), ?_⟩
      intro i d hi hfd
      refine acts_add h ?_ (acts_add w1 ?_ (acts_add w2 ?_ (acts_add w3 ?_ (acts_add w4 ?_ hi hfd) hfd) hfd) hfd) hfd
      · simp [isAction, ← hd1, dget, kFilter, kStream, kType]
      · simp [isAction, ← hd2, dset, dget, kType]
      · simp [isAction, ← hd3, dget, kType]
      · simp [isAction, ← hd4, dget, kFilter, kStream, kType]
      · simp [isAction, ← hd5, dget, kType]

theorem addOrGet_quiet {E : PdfEnv} {k : FKey} {p p' : FProc} {s s' : PdfT} {r : Str × Nat} (h : s.base.Wf)
    (hg : s.addOrGetFont E p k = .ok (r, p', s')) : Quiet s s' := by
  unfold PdfT.addOrGetFont at hg
  cases hu : dget k s.used with
  | some r0 => rw [hu] at hg; cases hg; exact Quiet.refl h
  | none =>
    rw [hu] at hg
    simp only at hg
    cases h1 : s.fonts.getFont E.files p k with
    | error e => rw [h1] at hg; cases hg
    | ok q =>
      obtain ⟨f, p1, fs⟩ := q
      rw [h1] at hg
      simp only at hg
      cases h2 : addFontObj E.num E.files s.base f with
      | error e => rw [h2] at hg; cases hg
      | ok q =>
        obtain ⟨id, b⟩ := q
        rw [h2] at hg
        cases hg
        obtain ⟨a1, a2⟩ := addFontObj_quiet h h2
        exact ⟨rfl, rfl, a1, a2, rfl, rfl⟩

theorem usedFont_quiet {E : PdfEnv} {k : FKey} {p p' : FProc} {s s' : PdfT} (h : s.base.Wf)
    (hg : s.usedFont E p k = .ok (p', s')) : Quiet s s' := by
  unfold PdfT.usedFont at hg
  cases h1 : s.addOrGetFont E p k with
  | error e => rw [h1] at hg; cases hg
  | ok q =>
    obtain ⟨r, p1, s1⟩ := q
    rw [h1] at hg
    simp only at hg
    cases h2 : s1.pages[s1.pageIndex]? with
    | none => rw [h2] at hg; cases hg
    | some pg =>
      rw [h2] at hg
      cases hg
      have q := addOrGet_quiet h h1
      exact q.trans (Quiet.onPage q.grows.1 fun p => rfl)

theorem usedFonts_quiet {E : PdfEnv} (l : List FKey) {p p' : FProc} {s s' : PdfT} (h : s.base.Wf)
    (hg : s.usedFonts E l p = .ok (p', s')) : Quiet s s' := by
  induction l generalizing p s with
  | nil => simp only [PdfT.usedFonts] at hg; cases hg; exact Quiet.refl h
  | cons k l ih =>
    simp only [PdfT.usedFonts] at hg
    cases h1 : s.usedFont E p k with
    | error e => rw [h1] at hg; cases hg
    | ok q =>
      obtain ⟨p1, s1⟩ := q
      rw [h1] at hg
      have q := usedFont_quiet h h1
      exact q.trans (ih q.grows.1 hg)

/-! ### The annotations -/

theorem afterPrefix_eq (p s : Str) : afterPrefix p s = if p.isPrefixOf s then some (s.drop p.length) else none := by
  induction p generalizing s with
  | nil => cases s <;> rfl
  | cons a p ih =>
    cases s with
    | nil => rfl
    | cons b s =>
      simp only [afterPrefix, ih]
      by_cases h : a = b
      · subst h
        simp [List.isPrefixOf]
      · simp [h, List.isPrefixOf]

/-- what the document should have after some placements -/
structure LinkInv (rnd : Rat → Rat) (s : PdfT) (puts : List Put) : Prop where
  wf : s.base.Wf
  annots : ∀ (i : Nat) (pg : Page), s.pages[i]? = some pg → pg.annots = pageAnnots rnd s.action i puts
  bound : ∀ p ∈ puts, p.page < s.pages.length
  links : ∀ l ∈ linksOf puts, ∃ id, dget l s.uris = some id
  uris : ∀ l id, dget l s.uris = some id → s.base.dictAt id = some (actionDict l)
  acts : ∀ id d, s.base.dictAt id = some d → isAction d → ∃ l, dget l s.uris = some id
  dests : ∀ name, dget name s.dests = (labelDests rnd name puts).getLast?

theorem Quiet.inv {rnd : Rat → Rat} {s s' : PdfT} (h : Quiet s s') {puts : List Put} (hi : LinkInv rnd s puts) :
    LinkInv rnd s' puts := by
  have hact : s'.action = s.action := by unfold PdfT.action; rw [h.uris]
  have hlen : s'.pages.length = s.pages.length := by have := congrArg List.length h.pages; simpa using this
  refine ⟨h.grows.1, ?_, ?_, ?_, ?_, ?_, ?_⟩
  · intro i pg hpg
    have := congrArg (·[i]?) h.pages
    simp only [List.getElem?_map, hpg, Option.map_some] at this
    obtain ⟨pg', e1, e2⟩ := Option.map_eq_some_iff.1 this.symm
    rw [hact, ← hi.annots i pg' e1]
    exact (congrArg Prod.fst e2).symm
  · intro p hp; rw [hlen]; exact hi.bound p hp
  · rw [h.uris]; exact hi.links
  · intro l id hl; rw [h.uris] at hl; exact h.grows.2.2 _ _ (hi.uris l id hl)
  · intro id d hd ha; rw [h.uris]; exact hi.acts id d (h.acts id d hd ha) ha
  · rw [h.dests]; exact hi.dests

/-- one more id of the last paragraph -/
def Spec.Put.snoc (p : Put) (x : Str × List IdRect) : Put := { p with ids := p.ids ++ [x] }

theorem pageAnnots_snoc (rnd : Rat → Rat) (a : Str → Nat) (i : Nat) (puts : List Put) (p : Put) (x : Str × List IdRect) :
    pageAnnots rnd a i (puts ++ [p.snoc x]) = pageAnnots rnd a i (puts ++ [p]) ++ if p.page = i then idAnnots rnd a p x else [] := by
  have h1 : ∀ (q : Put), pageAnnots rnd a i (puts ++ [q]) = pageAnnots rnd a i puts ++ if q.page = i then q.ids.flatMap (idAnnots rnd a q) else [] := by
    intro q
    unfold pageAnnots
    rw [List.filter_append, List.flatMap_append]
    by_cases h : q.page = i <;> simp [h]
  rw [h1, h1, List.append_assoc]
  congr 1
  have h2 : (p.snoc x).page = p.page := rfl
  rw [h2]
  by_cases h : p.page = i
  · simp only [h, if_true]
    have : (p.snoc x).ids = p.ids ++ [x] := rfl
    rw [this, List.flatMap_append]
    simp only [List.flatMap_cons, List.flatMap_nil, List.append_nil]
    rfl
  · simp [h]

theorem pageAnnots_new (rnd : Rat → Rat) (a : Str → Nat) (i : Nat) (puts : List Put) (p : Put) (h : p.ids = []) :
    pageAnnots rnd a i (puts ++ [p]) = pageAnnots rnd a i puts := by
  unfold pageAnnots
  rw [List.filter_append, List.flatMap_append]
  by_cases h' : p.page = i <;> simp [h', h]

theorem labelDests_snoc (rnd : Rat → Rat) (name : Str) (puts : List Put) (p : Put) (x : Str × List IdRect) :
    labelDests rnd name (puts ++ [p.snoc x]) = labelDests rnd name (puts ++ [p]) ++ idDests rnd name p x := by
  unfold labelDests
  rw [List.flatMap_append, List.flatMap_append, List.append_assoc]
  congr 1
  have : (p.snoc x).ids = p.ids ++ [x] := rfl
  simp only [List.flatMap_cons, List.flatMap_nil, List.append_nil, this, List.flatMap_append]
  rfl

theorem linksOf_snoc (puts : List Put) (p : Put) (x : Str × List IdRect) :
    linksOf (puts ++ [p.snoc x]) = linksOf (puts ++ [p]) ++ (match idKind x.1, x.2 with
      | .uri link, _ :: _ => [link]
      | _, _ => []) := by
  unfold linksOf
  rw [List.flatMap_append, List.flatMap_append, List.append_assoc]
  congr 1
  have : (p.snoc x).ids = p.ids ++ [x] := rfl
  simp only [List.flatMap_cons, List.flatMap_nil, List.append_nil, this, List.filterMap_append, List.filterMap_cons, List.filterMap_nil]
  congr 1
  cases idKind x.1 <;> cases x.2 <;> rfl

theorem pageAnnots_congr (rnd : Rat → Rat) {a a' : Str → Nat} (i : Nat) (puts : List Put) (h : ∀ l ∈ linksOf puts, a l = a' l) :
    pageAnnots rnd a i puts = pageAnnots rnd a' i puts := by
  unfold pageAnnots
  have key : ∀ p ∈ puts, p.ids.flatMap (idAnnots rnd a p) = p.ids.flatMap (idAnnots rnd a' p) := by
    intro p hp
    have : ∀ x ∈ p.ids, idAnnots rnd a p x = idAnnots rnd a' p x := by
      intro x hx
      unfold idAnnots
      cases hk : idKind x.1 with
      | uri link =>
        simp only
        cases hr : x.2 with
        | nil => rfl
        | cons r rs =>
          have : a link = a' link := by
            apply h
            unfold linksOf
            refine List.mem_flatMap.2 ⟨p, hp, List.mem_filterMap.2 ⟨x, hx, ?_⟩⟩
            rw [hk, hr]
          rw [this]
      | _ => rfl
    exact List.flatMap_congr this
  exact List.flatMap_congr fun p hp => key p (List.mem_filter.1 hp).1

theorem foldl_annots {α : Type} (g : α → Annot) (l : List α) (p : Page) :
    (l.foldl (fun p r => p.addAnnot (g r)) p).annots = p.annots ++ l.map g := by
  induction l generalizing p with
  | nil => simp
  | cons a l ih => rw [List.foldl_cons, ih]; simp [Page.addAnnot]

theorem placeRect_moved (rnd : Rat → Rat) (x y : Rat) (r : IdRect) : placeRect rnd x y r = movedRect rnd x y r := rfl

/-- annotations added to the current page -/
theorem LinkInv.annot {rnd : Rat → Rat} {s : PdfT} {puts : List Put} {p : Put} (h : LinkInv rnd s (puts ++ [p])) (hp : p.page = s.pageIndex)
    (x : Str × List IdRect) (g : IdRect → Annot) (hx : idAnnots rnd s.action p x = x.2.map g)
    (hl : ∀ l ∈ linksOf (puts ++ [p.snoc x]), ∃ id, dget l s.uris = some id) (hd : ∀ name, idDests rnd name p x = []) :
    LinkInv rnd (s.onPage fun pg => x.2.foldl (fun pg r => pg.addAnnot (g r)) pg) (puts ++ [p.snoc x]) := by
  refine ⟨h.wf, ?_, ?_, hl, h.uris, h.acts, ?_⟩
  · intro i pg hpg
    have ha : (s.onPage fun pg => x.2.foldl (fun pg r => pg.addAnnot (g r)) pg).action = s.action := rfl
    rw [ha, pageAnnots_snoc]
    simp only [PdfT.onPage, List.getElem?_modify] at hpg
    obtain ⟨q, hq, he⟩ := Option.map_eq_some_iff.1 hpg
    by_cases hi : s.pageIndex = i
    · rw [if_pos hi] at he
      rw [if_pos (hp.trans hi), ← he, foldl_annots, h.annots i q hq, hx]
    · rw [if_neg hi] at he
      rw [if_neg (fun h' => hi (hp.symm.trans h')), ← he, h.annots i q hq, List.append_nil]
  · intro q hq
    simp only [PdfT.onPage, List.length_modify]
    simp only [List.mem_append, List.mem_singleton] at hq
    rcases hq with hq | rfl
    · exact h.bound q (by simp [hq])
    · exact h.bound p (by simp)
  · intro name
    rw [labelDests_snoc, hd, List.append_nil]
    exact h.dests name

/-- an id without annotations -/
theorem LinkInv.plain {rnd : Rat → Rat} {s s' : PdfT} {puts : List Put} {p : Put} (h : LinkInv rnd s (puts ++ [p]))
    (x : Str × List IdRect) (hx : ∀ a, idAnnots rnd a p x = []) (hk : ∀ l, idKind x.1 = .uri l → x.2 = [])
    (h1 : s'.base = s.base) (h2 : s'.pages = s.pages) (h3 : s'.uris = s.uris)
    (hd : ∀ name, dget name s'.dests = (labelDests rnd name (puts ++ [p.snoc x])).getLast?) :
    LinkInv rnd s' (puts ++ [p.snoc x]) := by
  have ha : s'.action = s.action := by unfold PdfT.action; rw [h3]
  refine ⟨h1 ▸ h.wf, ?_, ?_, ?_, ?_, ?_, hd⟩
  · intro i pg hpg
    rw [h2] at hpg
    rw [ha, pageAnnots_snoc, hx, h.annots i pg hpg]
    simp
  · intro q hq
    rw [h2]
    simp only [List.mem_append, List.mem_singleton] at hq
    rcases hq with hq | rfl
    · exact h.bound q (by simp [hq])
    · exact h.bound p (by simp)
  · intro l hl
    rw [linksOf_snoc] at hl
    rw [h3]
    rcases List.mem_append.1 hl with hl | hl
    · exact h.links l hl
    · exfalso
      cases hi : idKind x.1 with
      | uri link => rw [hi, hk link hi] at hl; simp at hl
      | label _ => rw [hi] at hl; simp at hl
      | ref _ => rw [hi] at hl; simp at hl
      | other => rw [hi] at hl; simp at hl
  · rw [h1, h3]; exact h.uris
  · rw [h1, h3]; exact h.acts

theorem getLast?_snoc {α : Type} (l : List α) (a : α) : (l ++ [a]).getLast? = some a := by simp

/-- one id -/
theorem LinkInv.addId {E : PdfEnv} {s s' : PdfT} {puts : List Put} {p : Put} (h : LinkInv E.rnd s (puts ++ [p])) (hp : p.page = s.pageIndex)
    {page : Page} (ho : page.objId = p.objId) (hw : page.width = p.width) (id : Str) (rects : List IdRect)
    (hg : s.addId E page p.x p.y id rects = .ok s') : LinkInv E.rnd s' (puts ++ [p.snoc (id, rects)]) ∧ s'.pageIndex = s.pageIndex := by
  unfold PdfT.addId at hg
  cases rects with
  | nil =>
    cases hg
    refine ⟨h.plain _ ?_ (fun _ _ => rfl) rfl rfl rfl ?_, rfl⟩
    · intro a; unfold idAnnots; cases idKind id <;> rfl
    · intro name
      rw [labelDests_snoc, show idDests E.rnd name p (id, []) = [] by unfold idDests; cases idKind id <;> rfl, List.append_nil]
      exact h.dests name
  | cons d rs =>
    simp only [afterPrefix_eq] at hg
    have e1 : (c!"$label:" : Str).length = 7 := rfl
    have e2 : (c!"$ref:" : Str).length = 5 := rfl
    have e3 : (c!"$uri:" : Str).length = 5 := rfl
    by_cases k1 : List.isPrefixOf c!"$label:" id = true
    · have hk : idKind id = .label (id.drop 7) := by unfold idKind; rw [if_pos k1]
      rw [if_pos k1, e1] at hg
      simp only at hg
      unfold PdfT.addLabel at hg
      split at hg
      · cases hg
      · cases hg
        refine ⟨h.plain _ ?_ ?_ rfl rfl rfl ?_, rfl⟩
        · intro a; unfold idAnnots; simp only [hk]
        · intro l hl; simp only [hk] at hl; cases hl
        · intro name
          rw [labelDests_snoc]
          simp only [dget_dset]
          obtain ⟨l, b, r, t⟩ := d
          unfold idDests
          simp only [hk]
          by_cases hn : name = id.drop 7
          · rw [if_pos hn, if_pos hn.symm, getLast?_snoc, ho, hw]
          · rw [if_neg hn, if_neg (fun hh => hn hh.symm), List.append_nil]
            exact h.dests name
    · rw [if_neg k1] at hg
      simp only at hg
      by_cases k2 : List.isPrefixOf c!"$ref:" id = true
      · have hk : idKind id = .ref (id.drop 5) := by unfold idKind; rw [if_neg k1, if_pos k2]
        rw [if_pos k2, e2] at hg
        cases hg
        refine ⟨h.annot hp (id, d :: rs) _ ?_ ?_ ?_, rfl⟩
        · unfold idAnnots; simp only [hk]; rfl
        · intro l hl
          rw [linksOf_snoc] at hl
          simp only [hk, List.append_nil] at hl
          exact h.links l hl
        · intro name; unfold idDests; simp only [hk]
      · rw [if_neg k2] at hg
        simp only at hg
        by_cases k3 : List.isPrefixOf c!"$uri:" id = true
        · have hk : idKind id = .uri (id.drop 5) := by unfold idKind; rw [if_neg k1, if_neg k2, if_pos k3]
          rw [if_pos k3, e3] at hg
          cases hg
          unfold PdfT.addUris PdfT.uriId
          generalize id.drop 5 = link at hk
          have hdst : ∀ name, idDests E.rnd name p (id, d :: rs) = [] := by intro name; unfold idDests; simp only [hk]
          have hann : ∀ a, idAnnots E.rnd a p (id, d :: rs) = (d :: rs).map fun r => .link (a link) (placeRect E.rnd p.x p.y r) := by
            intro a; unfold idAnnots; simp only [hk]; rfl
          cases hu : dget link s.uris with
          | some n =>
            refine ⟨h.annot hp (id, d :: rs) _ ?_ ?_ hdst, rfl⟩
            · rw [hann, PdfT.action, hu]; rfl
            · intro l hl
              rw [linksOf_snoc] at hl
              simp only [hk] at hl
              rcases List.mem_append.1 hl with hl | hl
              · exact h.links l hl
              · simp only [List.mem_singleton] at hl
                subst hl
                exact ⟨n, hu⟩
          | none =>
            -- the new action
            have h' : LinkInv E.rnd { s with base := (s.base.addDict (actionDict link)).2, uris := dset link s.base.count s.uris } (puts ++ [p]) := by
              have hne : ∀ l ∈ linksOf (puts ++ [p]), l ≠ link := by
                rintro l hl rfl
                obtain ⟨n, hn⟩ := h.links l hl
                rw [hu] at hn; cases hn
              refine ⟨h.wf.addDict _, ?_, h.bound, ?_, ?_, ?_, h.dests⟩
              · intro i pg hpg
                rw [h.annots i pg hpg]
                apply pageAnnots_congr
                intro l hl
                simp only [PdfT.action, dget_dset, if_neg (hne l hl)]
              · intro l hl
                obtain ⟨n, hn⟩ := h.links l hl
                exact ⟨n, by simp only [dget_dset, if_neg (hne l hl)]; exact hn⟩
              · intro l n hn
                simp only [dget_dset] at hn
                split at hn
                · rename_i hh
                  cases hn
                  rw [hh]
                  exact dictAt_add_self h.wf _
                · exact (Grows.add h.wf _).2.2 _ _ (h.uris l n hn)
              · intro n d' hd' ha
                rcases font_dicts_add h.wf _ hd' with ⟨e, _⟩ | hd'
                · exact ⟨link, by simp only [dget_dset_self, e]⟩
                · obtain ⟨l, hl⟩ := h.acts n d' hd' ha
                  refine ⟨l, ?_⟩
                  simp only [dget_dset]
                  rw [if_neg]
                  · exact hl
                  · rintro rfl
                    rw [hu] at hl; cases hl
            refine ⟨h'.annot hp (id, d :: rs) _ ?_ ?_ hdst, rfl⟩
            · rw [hann, PdfT.action]
              simp only [dget_dset_self, Option.getD_some]
              rfl
            · intro l hl
              rw [linksOf_snoc] at hl
              simp only [hk] at hl
              rcases List.mem_append.1 hl with hl | hl
              · exact h'.links l hl
              · simp only [List.mem_singleton] at hl
                subst hl
                exact ⟨s.base.count, by simp⟩
        · have hk : idKind id = .other := by unfold idKind; rw [if_neg k1, if_neg k2, if_neg k3]
          have fin : ∀ s'' : PdfT, s''.base = s.base → s''.pages = s.pages → s''.uris = s.uris → s''.dests = s.dests →
              LinkInv E.rnd s'' (puts ++ [p.snoc (id, d :: rs)]) := by
            intro s'' a1 a2 a3 a4
            refine h.plain _ ?_ ?_ a1 a2 a3 ?_
            · intro a; unfold idAnnots; simp only [hk]
            · intro l hl; simp only [hk] at hl; cases hl
            · intro name
              rw [labelDests_snoc, a4, show idDests E.rnd name p (id, d :: rs) = [] by unfold idDests; simp only [hk], List.append_nil]
              exact h.dests name
          rw [if_neg k3] at hg
          simp only at hg
          split at hg
          · unfold PdfT.addOutline at hg
            split at hg
            · cases hg
            · split at hg
              · cases hg
              · cases hg
                exact ⟨fin _ rfl rfl rfl rfl, rfl⟩
          · cases hg; exact ⟨fin _ rfl rfl rfl rfl, rfl⟩

theorem LinkInv.addIds {E : PdfEnv} {page : Page} (l : List (Str × List IdRect)) {s s' : PdfT} {puts : List Put} {p : Put}
    (h : LinkInv E.rnd s (puts ++ [p])) (hp : p.page = s.pageIndex) (ho : page.objId = p.objId) (hw : page.width = p.width)
    (hg : s.addIds E page p.x p.y l = .ok s') : LinkInv E.rnd s' (puts ++ [{ p with ids := p.ids ++ l }]) ∧ s'.pageIndex = s.pageIndex := by
  induction l generalizing s p with
  | nil => simp only [PdfT.addIds] at hg; cases hg; simpa using h
  | cons a l ih =>
    obtain ⟨id, rects⟩ := a
    simp only [PdfT.addIds] at hg
    cases h1 : s.addId E page p.x p.y id rects with
    | error e => rw [h1] at hg; cases hg
    | ok s1 =>
      rw [h1] at hg
      obtain ⟨a1, a2⟩ := h.addId hp ho hw id rects h1
      obtain ⟨b1, b2⟩ := ih (p := p.snoc (id, rects)) a1 (hp.trans a2.symm) ho hw hg
      refine ⟨?_, b2.trans a2⟩
      simpa [Spec.Put.snoc] using b1

theorem movePage_quiet (move : Str) (w h : Rat) (p : Page) :
    ((movePage move w h p).annots, (movePage move w h p).objId, (movePage move w h p).width) = (p.annots, p.objId, p.width) := by
  unfold movePage
  simp only
  split <;> split <;> rfl

theorem LinkInv.addText {E : PdfEnv} {F : NumFmt} {p p' : FProc} {s s' : PdfT} {puts : List Put} (h : LinkInv E.rnd s puts)
    {x y width height : Rat} {text graphics : Str} {used : List FKey} {ids : List (Str × List IdRect)} {move : Str} {pg : Page}
    (hpg : s.pages[s.pageIndex]? = some pg)
    (hg : s.addText E F p x y width height text graphics used ids move = .ok (p', s')) :
    LinkInv E.rnd s' (puts ++ [⟨s.pageIndex, pg.objId, pg.width, x, y, ids⟩]) := by
  unfold PdfT.addText at hg
  rw [hpg] at hg
  simp only at hg
  cases h2 : pg.addStr (paragraphStream F x y text graphics) with
  | error e => rw [h2] at hg; cases hg
  | ok q =>
    obtain ⟨n, page'⟩ := q
    rw [h2] at hg
    simp only at hg
    have hpf : (page'.annots, page'.objId, page'.width) = (pg.annots, pg.objId, pg.width) := by
      unfold Page.addStr at h2
      split at h2
      · cases h2; rfl
      · cases h2
    have q0 : Quiet s (s.onPage fun _ => page') := by
      refine ⟨rfl, rfl, ⟨h.wf, le_refl _, fun _ _ h => h⟩, fun _ _ h _ => h, ?_, rfl⟩
      apply List.ext_getElem?
      intro j
      simp only [PdfT.onPage]
      rw [List.getElem?_map, List.getElem?_map, List.getElem?_modify]
      by_cases hj : s.pageIndex = j
      · subst hj
        rw [hpg]
        simpa using hpf
      · cases s.pages[j]? <;> simp [hj]
    cases h3 : (s.onPage fun _ => page').usedFonts E used p with
    | error e => rw [h3] at hg; cases hg
    | ok q =>
      obtain ⟨p1, s1⟩ := q
      rw [h3] at hg
      simp only at hg
      have q1 := q0.trans (usedFonts_quiet used q0.grows.1 h3)
      cases h4 : s1.addIds E pg x y ids with
      | error e => rw [h4] at hg; cases hg
      | ok s2 =>
        rw [h4] at hg
        cases hg
        have i1 := q1.inv h
        have i2 : LinkInv E.rnd s1 (puts ++ [⟨s.pageIndex, pg.objId, pg.width, x, y, []⟩]) := by
          refine ⟨i1.wf, ?_, ?_, ?_, i1.uris, i1.acts, ?_⟩
          · intro i q hq
            rw [pageAnnots_new _ _ _ _ _ rfl]
            exact i1.annots i q hq
          · intro q hq
            simp only [List.mem_append, List.mem_singleton] at hq
            rcases hq with hq | rfl
            · exact i1.bound q hq
            · have l1 : s1.pages.length = s.pages.length := by have := congrArg List.length q1.pages; simpa using this
              simp only [l1]
              exact (List.getElem?_eq_some_iff.1 hpg).1
          · intro l hl
            have : linksOf (puts ++ [⟨s.pageIndex, pg.objId, pg.width, x, y, []⟩]) = linksOf puts := by
              unfold linksOf; rw [List.flatMap_append]; simp
            rw [this] at hl
            exact i1.links l hl
          · intro name
            have : labelDests E.rnd name (puts ++ [⟨s.pageIndex, pg.objId, pg.width, x, y, []⟩]) = labelDests E.rnd name puts := by
              unfold labelDests; rw [List.flatMap_append]; simp
            rw [this]
            exact i1.dests name
        obtain ⟨i3, i4⟩ := LinkInv.addIds (page := pg) ids i2 q1.index.symm rfl rfl h4
        have := (Quiet.onPage i3.wf (movePage_quiet move width height)).inv i3
        simpa using this

theorem LinkInv.op {E : PdfEnv} {F : NumFmt} {w w' : PutSt} (h : LinkInv E.rnd w.doc w.puts) (o : PutOp)
    (ho : ∀ d, o = .addObject d → ¬ isAction d) (hg : w.op E F o = .ok w') : LinkInv E.rnd w'.doc w'.puts := by
  cases o with
  | newPage a b c d e f =>
    simp only [PutSt.op] at hg
    cases hg
    have hw := h.wf
    have g := (Grows.add hw [(kFilter, .bytes b!"/FlateDecode"), (kStream, .dict [])]).trans (Grows.add (hw.addDict _) [(kType, .bytes b!"/Page"), (kContents, .ref w.doc.base.count), (kResources, .dict [])])
    refine ⟨g.1, ?_, ?_, h.links, ?_, ?_, h.dests⟩
    · intro i pg hpg
      have ha : (w.doc.addPage a b c d e f).action = w.doc.action := rfl
      rw [ha]
      simp only [PdfT.addPage] at hpg
      by_cases hi : i < w.doc.pages.length
      · rw [List.getElem?_append_left hi] at hpg
        exact h.annots i pg hpg
      · rw [List.getElem?_append_right (by omega)] at hpg
        have hnil : pg.annots = [] := by
          have := List.mem_of_getElem? hpg
          simp only [List.mem_singleton] at this
          rw [this]; rfl
        rw [hnil]
        unfold pageAnnots
        have : w.puts.filter (fun p => p.page = i) = [] := by
          rw [List.filter_eq_nil_iff]
          intro p hp
          have := h.bound p hp
          simp
          omega
        rw [this]; rfl
    · intro p hp
      have := h.bound p hp
      simp only [PdfT.addPage, List.length_append, List.length_singleton]
      omega
    · intro l id hl
      exact g.2.2 _ _ (h.uris l id hl)
    · intro id d' hd' ha
      refine h.acts id d' ?_ ha
      refine acts_add hw ?_ (acts_add (hw.addDict _) ?_ hd' ha) ha
      · simp [isAction, dget, kFilter, kStream, kType]
      · simp [isAction, dget, kType]
  | addObject d =>
    simp only [PutSt.op] at hg
    cases hg
    have q : Quiet w.doc { w.doc with base := (w.doc.base.addDict d).2 } :=
      ⟨rfl, rfl, Grows.add h.wf d, fun id d' hd' ha => acts_add h.wf (ho d rfl) hd' ha, rfl, rfl⟩
    exact q.inv h
  | put i x y width height text graphics used ids move =>
    simp only [PutSt.op] at hg
    cases h1 : w.doc.pages[i]? with
    | none => rw [h1] at hg; cases hg
    | some pg =>
      rw [h1] at hg
      simp only at hg
      cases h2 : ({ w.doc with pageIndex := i } : PdfT).addText E F w.proc x y width height text graphics used ids move with
      | error e => rw [h2] at hg; cases hg
      | ok r =>
        obtain ⟨p, doc⟩ := r
        rw [h2] at hg
        cases hg
        have h' : LinkInv E.rnd ({ w.doc with pageIndex := i } : PdfT) w.puts := ⟨h.wf, h.annots, h.bound, h.links, h.uris, h.acts, h.dests⟩
        exact h'.addText h1 h2

theorem LinkInv.run {E : PdfEnv} {F : NumFmt} (ops : List PutOp) {w w' : PutSt} (h : LinkInv E.rnd w.doc w.puts)
    (ho : ∀ d, PutOp.addObject d ∈ ops → ¬ isAction d) (hg : w.run E F ops = .ok w') : LinkInv E.rnd w'.doc w'.puts := by
  induction ops generalizing w with
  | nil => simp only [PutSt.run] at hg; cases hg; exact h
  | cons o ops ih =>
    simp only [PutSt.run] at hg
    cases h1 : w.op E F o with
    | error e => rw [h1] at hg; cases hg
    | ok w1 =>
      rw [h1] at hg
      exact ih (h.op o (fun d hd => ho d (hd ▸ List.mem_cons_self)) h1) (fun d hd => ho d (List.mem_cons_of_mem _ hd)) hg

/-- C52: after any history of a document, there is one action object per link (and no other action objects), the
annotations of every page are those of the rectangles of the references and links of the paragraphs placed on it,
moved to their positions, and the destination of every label is the place it was put last. -/
theorem C52_links (E : PdfEnv) (F : NumFmt) (p0 : FProc) (version : Str) (ops : List PutOp)
    (ho : ∀ d, PutOp.addObject d ∈ ops → ¬ isAction d) (w0 w : PutSt) (h0 : PutSt.start E p0 version = .ok w0)
    (h : w0.run E F ops = .ok w) :
    ∃ action : Str → Nat,
      (∀ l ∈ linksOf w.puts, w.doc.base.dictAt (action l) = some (actionDict l)) ∧
      (∀ l ∈ linksOf w.puts, ∀ id, w.doc.base.dictAt id = some (actionDict l) → id = action l) ∧
      (∀ i pg, w.doc.pages[i]? = some pg → pg.annots = pageAnnots E.rnd action i w.puts) ∧
      (∀ name, dget name w.doc.dests = (labelDests E.rnd name w.puts).getLast?) := by
  have inv : LinkInv E.rnd w.doc w.puts := by
    refine LinkInv.run ops ?_ ho h
    unfold PutSt.start PdfT.new at h0
    have hw : (Base.new version []).Wf := by simp [Base.Wf, Base.new]
    have hi : LinkInv E.rnd (PdfT.init version) [] := by
      refine ⟨hw.addDict _, by simp [PdfT.init], by simp, by simp [linksOf], by simp [PdfT.init, dget], ?_, by simp [PdfT.init, dget, labelDests]⟩
      intro id d hd ha
      have hd' : ((Base.new version []).addDict [(kType, .bytes b!"/Catalog")]).2.dictAt id = some d := hd
      rcases font_dicts_add hw _ hd' with ⟨_, rfl⟩ | hd'
      · simp [isAction, dget] at ha
      · cases id <;> simp [Base.dictAt, Base.new] at hd'
    cases h1 : (PdfT.init version).addOrGetFont E p0 (c!"Helvetica", c!"n") with
    | error e => rw [h1] at h0; cases h0
    | ok r =>
      obtain ⟨r, p, s⟩ := r
      rw [h1] at h0
      cases h0
      exact (addOrGet_quiet hi.wf h1).inv hi
  refine ⟨w.doc.action, ?_, ?_, inv.annots, inv.dests⟩
  · intro l hl
    obtain ⟨id, hid⟩ := inv.links l hl
    rw [PdfT.action, hid]
    exact inv.uris l id hid
  · intro l hl id hd
    obtain ⟨l', hl'⟩ := inv.acts id _ hd (by simp [isAction, actionDict, dget])
    have := inv.uris l' id hl'
    rw [hd] at this
    simp only [actionDict, Option.some.injEq, List.cons.injEq, Prod.mk.injEq, Obj.str.injEq, and_true, true_and] at this
    subst this
    rw [PdfT.action, hl']
    rfl

private def ex52E : PdfEnv := ⟨fun _ => none, fun x => .int x.num, fun _ => none, id⟩

private def ex52Ops : List PutOp :=
  [.newPage 100 200 10 10 10 10, .newPage 100 200 10 10 10 10,
   .put 0 10 20 50 10 [] [] [] [(c!"$uri:http://a", [(1, 2, 3, 4), (5, 6, 7, 8)]), (c!"$label:l", [(1, 2, 3, 4)])] c!"bottom",
   .put 1 10 30 50 10 [] [] [] [(c!"$ref:l", [(1, 2, 3, 4)]), (c!"$uri:http://a", [(0, 0, 1, 1)]), (c!"$label:l", [(1, 2, 3, 4)])] c!"bottom"]

private def ex52Res : Except PyErr (List (List Annot) × List (Str × PDest)) :=
  match PutSt.start ex52E ⟨[], []⟩ c!"1.5" with
  | .error e => .error e
  | .ok w => (w.run ex52E sampleFmt ex52Ops).map fun w => (w.doc.pages.map (·.annots), w.doc.dests)

example : ex52Res = .ok ([[.link 7 [11, 22, 13, 24], .link 7 [15, 26, 17, 28]],
    [.dest c!"l" [11, 32, 13, 34], .link 7 [10, 30, 11, 31]]], [(c!"l", ⟨6, 11, 34, 111/100⟩)]) := by decide +kernel

end Verif
