import Verif.Spec.FileLinks
import Verif.Props.C84_Book
import Verif.Props.C65_Operations
/-! The links, names and outline of the pieces of a document. -/
namespace Verif
open Spec

/-! ### Paragraphs whose pieces can be found -/

/-- a paragraph without indent, whose blanks are words of their own -/
def Spec.PlainPar (cfg : TCfg) : Prop := cfg.indent = 0 ∧ ∀ w ∈ contentWords cfg.content, w = c!" " ∨ ' ' ∉ w

def Spec.PlainLeaf : DocLeaf → Prop
  | .par a _ _ => PlainPar a.cfg
  | .image _ _ => True

/-- contents as in `docSpec`, with such paragraphs -/
def Spec.plainSpec (T : TextEnv) (refOf : Str → Str → Str) : LSpec DocLeaf where
  atoms := (docSpec T refOf).atoms
  fit l w := (docSpec T refOf).fit l w ∧ PlainLeaf l
  fresh := (docSpec T refOf).fresh
  void l := (docSpec T refOf).void l ∧ PlainLeaf l

def Spec.plainNest (T : TextEnv) (refOf : Str → Str → Str) (n : Nat) : NSpec (DocNest n) := nestSpec (plainSpec T refOf) LineLook (PDFColor Rat) n

section
variable {σ B C : Type}

/-- a specification that asks for more -/
structure Stronger (S S' : NSpec σ) : Prop where
  tags : S.tags = S'.tags
  fresh : S.fresh = S'.fresh
  fit : ∀ c w, S.fit c w → S'.fit c w
  void : ∀ c, S.void c → S'.void c

theorem Stronger.table {S S' : NSpec σ} (h : Stronger S S') {D : TabData σ B C} {Ws : List Rat} (hD : TableFit S D Ws) : TableFit S' D Ws :=
  ⟨hD.spans, hD.rows, hD.border, hD.style, hD.cells, hD.cols, h.void _ hD.blank, h.fresh ▸ hD.fresh, fun i j c x h1 h2 W hW i' => h.fit _ _ (hD.fits i j c x h1 h2 W hW i'), by
    have := hD.tags
    unfold NSpec.tableTags at this ⊢
    rw [← h.tags]
    exact this⟩

theorem Stronger.elTags {S S' : NSpec σ} (h : Stronger S S') : S.elTags = S'.elTags := by
  funext e
  cases e <;> simp [NSpec.elTags, h.tags]

theorem Stronger.box {S S' : NSpec σ} (h : Stronger S S') {els : List (CEl σ)} {Ws : List Rat} (hb : BoxFit S els Ws) : BoxFit S' els Ws :=
  ⟨hb.tidy, h.fresh ▸ hb.fresh, fun c st hc W hW => h.fit _ _ (hb.fits c st hc W hW), h.elTags ▸ hb.tags⟩

end

section
variable {T : TextEnv} {refOf : Str → Str → Str} {fuel : Nat} {ε : Rat}

theorem plain_stronger : ∀ n, Stronger (plainNest T refOf n) (docNest T refOf n)
  | 0 => ⟨rfl, rfl, fun c => c.elim, fun c => c.elim⟩
  | n + 1 => by
    have ih := plain_stronger n
    refine ⟨?_, ?_, ?_, ?_⟩
    · funext c
      cases c with
      | leaf t l => rfl
      | table D rects =>
        show (plainNest T refOf n).tableTags D.content = (docNest T refOf n).tableTags D.content
        unfold NSpec.tableTags
        rw [ih.tags]
      | box gap els rects =>
        show els.flatMap (plainNest T refOf n).elTags = els.flatMap (docNest T refOf n).elTags
        rw [ih.elTags]
    · funext c
      cases c <;> rfl
    · intro c w h
      cases c with
      | leaf t l => exact h.1
      | table D rects => exact ih.table h
      | box gap els rects => exact ih.box h
    · intro c h
      cases c with
      | leaf t l => exact h.1
      | table D rects => exact h.elim
      | box gap els rects => exact h.elim

theorem plain_next {l : DocLeaf} {x y w h : Rat} {o : CellOut DocLeaf DocPart LineLook (PDFColor Rat)} (ho : docExec T l x y w h = .ok o) (hl : PlainLeaf l) : PlainLeaf o.next := by
  cases l with
  | par a rects correct =>
    simp only [docExec, docParExec] at ho
    split at ho
    · cases ho
      exact hl
    · split at ho
      · cases ho
      · cases ho
        exact hl
  | image im shown =>
    cases shown with
    | true => cases ho; trivial
    | false =>
      simp only [docExec, docImageExec] at ho
      split at ho
      · cases ho
      · split at ho
        · cases ho; trivial
        · cases ho; trivial

theorem plain_good : LGood (fun p => leafPartAtoms p.leaf) (plainSpec T refOf) (docExec T) where
  rest := by
    obtain ⟨rest, h1, h2⟩ := (doc_good (T := T) (refOf := refOf)).rest
    have sub : ∀ {c x y w h o}, lguard (plainSpec T refOf) (docExec T) c x y w h = .ok o → lguard (docSpec T refOf) (docExec T) c x y w h = .ok o := by
      intro c x y w h o ho
      unfold lguard at ho ⊢
      split at ho
      · rename_i hf
        rw [if_pos (show (docSpec T refOf).fit c w from hf.1)]
        exact ho
      · cases ho
    exact ⟨rest, ⟨fun c x y w h o ho => h1.step c x y w h o (sub ho), fun c x y w h o ho => h1.done c x y w h o (sub ho),
      fun c x y w h o ho => h1.zero c x y w h o (sub ho)⟩, h2⟩
  next := fun l x y w h o w' ho hf => ⟨doc_good.next l x y w h o w' ho hf.1, plain_next ho hf.2⟩
  void := by
    intro l hl
    obtain ⟨h1, h2, h3⟩ := doc_good.void l hl.1
    exact ⟨fun w => ⟨h1 w, hl.2⟩, h2, h3⟩

/-- the part of such a paragraph -/
def PartPlain : DocPart → Prop
  | .par _ _ _ _ _ _ _ _ cfg _ => 0 < cfg.lineHeight ∧ PlainPar cfg ∧ cfg.list = none
  | .image .. => True

theorem plain_parts : ∀ l x y w h o, (plainSpec T refOf).fit l w → docExec T l x y w h = .ok o → ∀ p ∈ o.parts, PartPlain p := by
  intro l x y w h o hf ho p hp
  cases l with
  | par a rects correct =>
    have hl : 0 < a.cfg.lineHeight := hf.1.1
    have hr : Readable T.fmt refOf a.cfg := hf.1.2
    simp only [docExec, docParExec] at ho
    split at ho
    · cases ho
      cases hp
    · split at ho
      · cases ho
      · cases ho
        rw [List.mem_singleton.1 hp]
        exact ⟨hl, hf.2, hr.list⟩
  | image im shown =>
    cases shown with
    | true =>
      cases ho
      cases hp
    | false =>
      simp only [docExec, docImageExec] at ho
      split at ho
      · cases ho
      · split at ho
        · cases ho
          rw [List.mem_singleton.1 hp]
          trivial
        · cases ho
          cases hp

/-- the parts of a content box -/
theorem content_plain {b : DocBox} {Ws : List Rat} (hb : BoxFit (plainNest T refOf b.depth) b.els Ws)
    {c : CContent (DocNest b.depth) (TagPart DocPart) LineLook (PDFColor Rat)} (hc : BoxState T fuel b Ws c) {x y w h : Rat} (hw : w ∈ Ws)
    {o : FlowOut (CContent (DocNest b.depth) (TagPart DocPart) LineLook (PDFColor Rat))} (ho : contentFlow T fuel b c x y w h = .ok o) :
    ∀ p ∈ o.parts, PartPlain p := by
  obtain ⟨hf, rects, ps, hW, hr⟩ := hc
  unfold contentFlow at ho
  split at ho
  · cases ho
  · rename_i s' hs
    split at ho
    · cases ho
    · cases ho
      have hr' : (CContent.new 1 b.gap b.els).runs (docNestExec T fuel b.depth) fuel (rects ++ [(x, y, w, h)]) = .ok (ps ++ s'.out.parts, s') := by
        rw [contentBox_runs_snoc, hr]
        simp [hf, hs]
      have hW' : ∀ r ∈ rects ++ [(x, y, w, h)], r.2.2.1 ∈ Ws := by
        intro r hr
        rcases List.mem_append.1 hr with hr | hr
        · exact hW r hr
        · simp only [List.mem_singleton] at hr
          subst hr
          exact hw
      intro p hp
      obtain ⟨q, hq, rfl⟩ := List.mem_map.1 hp
      have h1 := box_parts (nest_good plain_good fuel b.depth) (nest_parts (B := LineLook) (C := PDFColor Rat) (P := PartPlain) plain_good plain_parts fuel b.depth) hb hW' hr' q (List.mem_append.2 (Or.inr hq))
      cases hj : q.join with
      | leaf l => rw [hj] at h1; exact h1
      | image => trivial

/-! ### The marks of pieces -/

/-- a piece as it is shown: of a paragraph, `marks` are its pieces with something to see, where its lines are shown in the page; their backgrounds and underlines, in
their places, are everything that is painted besides. Nothing else shows text. -/
def Spec.TextMarked (F : TFmt) (M : Metrics) (ε : Rat) (r : Painted) (marks : List Mark) : Prop :=
  match r.mark with
  | none => marks = [] ∧ ∀ gs tm mv s, Event.text gs tm mv s ∉ r.evs
  | some m => ∃ (cfg : TCfg) (X Y : Nat → Rat) (tw : Nat → TPart → Rat) (gs0 : GS) (drawn shown : List Event), cfg.list = none ∧
      marks = runMarks X Y (fun j p => shownWidth M (tw j p) p) 0 (m.lines.map Prod.fst) ∧ r.evs = drawn ++ shown ∧ gs0.cms = [placeAt F m.x m.y] ∧
      List.Forall₂ (DecoPainted F.comps (markErr ε) gs0) (marks.flatMap Mark.decos) drawn ∧
      List.Forall₂ (ShownAt (placeAt F m.x m.y) [] X Y tw) (placedFrom cfg false 0 m.lines) shown ∧
      ∀ font, eventGlyphs font r.evs = m.lines.flatMap (lineGlyphs F font)

/-- the rectangles noted for a piece are those of its marks -/
def MarksNoted (ε : Rat) (r : Painted) (marks : List Mark) : Prop :=
  ∀ m, r.mark = some m → (∀ id, List.Forall₂ (RectAround (markErr ε)) (marksOf id marks) ((dget id m.ids).getD [])) ∧ m.ids.map Prod.fst = firsts (markIds marks)

theorem piece_marked (hε : T.fmt.Signed ε) {s : PdfD} {a : Option DocPart} {r : Painted} (h : PieceShows T s a r) (ha : ∀ p, a = some p → PartPlain p) :
    ∃ marks, TextMarked T.fmt T.metrics ε r marks ∧ MarksNoted ε r marks := by
  have none_case : r.mark = none → (∀ gs tm mv s, Event.text gs tm mv s ∉ r.evs) → ∃ marks, TextMarked T.fmt T.metrics ε r marks ∧ MarksNoted ε r marks := by
    intro h1 h2
    refine ⟨[], ?_, fun m hm => by rw [h1] at hm; cases hm⟩
    unfold TextMarked
    rw [h1]
    exact ⟨rfl, h2⟩
  cases a with
  | none => exact none_case h.1 fun gs tm mv s he => h.2 _ he
  | some p =>
    have hp := ha p rfl
    cases p with
    | par x y w ht text graphics used ids cfg lines =>
      obtain ⟨h1, h2, -, -, -, h3⟩ := h
      obtain ⟨k1, k2, k3⟩ := hp
      obtain ⟨X, Y, tw, marks, gs0, drawn, shown, m1, m2, m3, m4, m5, m6, m7, -⟩ := h2 ε hε k1.le k2.1 k2.2
      refine ⟨marks, ?_, fun m hm => ?_⟩
      · unfold TextMarked
        rw [h1]
        exact ⟨cfg, X, Y, tw, gs0, drawn, shown, k3, m1, m2, m3, m4, m5, h3⟩
      · rw [h1] at hm
        cases hm
        exact ⟨m6, m7⟩
    | image im x y w ht =>
      obtain ⟨h0, gs, n, id, pg, h1, -⟩ := h
      refine none_case h0 fun gs tm mv s he => ?_
      rw [h1] at he
      cases List.mem_singleton.1 he

/-! ### From marks to what is asked for -/

theorem rel_flatMap_same {α β γ : Type} {R : β → γ → Prop} {f : α → List β} {g : α → List γ} : ∀ {l : List α}, (∀ a ∈ l, List.Forall₂ R (f a) (g a)) →
    List.Forall₂ R (l.flatMap f) (l.flatMap g) := by
  intro l
  induction l with
  | nil => intro _; exact .nil
  | cons a l ih =>
    intro h
    rw [List.flatMap_cons, List.flatMap_cons]
    exact List.rel_append (h a List.mem_cons_self) (ih fun b hb => h b (List.mem_cons_of_mem _ hb))

/-- going through a dictionary is going through its keys -/
theorem dict_flatMap {β : Type} (f : Str × List IdRect → List β) {ids : List (Str × List IdRect)} (h : (ids.map Prod.fst).Nodup) :
    ids.flatMap f = (ids.map Prod.fst).flatMap fun id => f (id, (dget id ids).getD []) := by
  rw [List.flatMap_map]
  have : ∀ l : List (Str × List IdRect), (∀ e ∈ l, e ∈ ids) → l.flatMap f = l.flatMap fun e => f (e.1, (dget e.1 ids).getD []) := by
    intro l
    induction l with
    | nil => intro _; rfl
    | cons e l ih =>
      intro hl
      rw [List.flatMap_cons, List.flatMap_cons, ih fun e he => hl e (List.mem_cons_of_mem _ he)]
      have : dget e.1 ids = some e.2 := dget_of_mem h (hl e List.mem_cons_self)
      rw [this]
      rfl
  exact this ids fun _ h => h

theorem moved_around {rnd : Rat → Rat} {δ : Rat} (hδ : ∀ v, |rnd v - v| ≤ δ) {e v u x : Rat} (h : |v - u| ≤ e) : |rnd (x + v) - (x + u)| ≤ e + δ := by
  rw [add_comm e δ]
  refine abs_near (hδ _) ?_
  rw [show x + v - (x + u) = v - u by ring]
  exact h

/-- a link asked for is around its piece -/
def AskedAround (e : Mark → Rat) (m : TextPiece) (k : Mark × Action) (q : List Rat × Action) : Prop :=
  q.2 = k.2 ∧ ∃ a b c d, q.1 = [a, b, c, d] ∧ |a - (m.x + k.1.x)| ≤ e k.1 ∧ |b - (m.y + (k.1.base - k.1.size / 4))| ≤ e k.1 ∧
    |c - (m.x + (k.1.x + k.1.w))| ≤ e k.1 ∧ |d - (m.y + (k.1.base + 3 * k.1.size / 4))| ≤ e k.1

theorem piece_links {rnd : Rat → Rat} {δ : Rat} (hδ : ∀ v, |rnd v - v| ≤ δ) {r : Painted} {m : TextPiece} {marks : List Mark} (hm : r.mark = some m) (h : MarksNoted ε r marks)
    (page : Nat) : List.Forall₂ (AskedAround (fun k => markErr ε k + δ) m) (pieceLinks marks) (m.ids.flatMap (idLinks rnd ⟨page, m.x, m.y, m.ids⟩)) := by
  obtain ⟨h1, h2⟩ := h m hm
  rw [dict_flatMap _ (h2 ▸ firsts_nodup _), h2, pieceLinks]
  refine rel_flatMap_same fun id _ => ?_
  have hr := h1 id
  have key : ∀ act : Action, List.Forall₂ (AskedAround (fun k => markErr ε k + δ) m) ((marksOf id marks).map fun k => (k, act))
      (((dget id m.ids).getD []).map fun r => (movedRect rnd m.x m.y r, act)) := by
    intro act
    rw [List.forall₂_map_left_iff, List.forall₂_map_right_iff]
    refine hr.imp ?_
    rintro k ⟨l, b, rr, t⟩ ⟨a1, a2, a3, a4⟩
    exact ⟨rfl, _, _, _, _, rfl, moved_around hδ a1, moved_around hδ a2, moved_around hδ a3, moved_around hδ a4⟩
  unfold idLinks idAction
  cases idKind id with
  | ref name => exact key _
  | uri link => exact key _
  | label name => exact .nil
  | other => exact .nil

theorem idKind_label {id name : Str} : idKind id = .label name ↔ id = c!"$label:" ++ name := by
  unfold idKind
  constructor
  · intro h
    split at h
    · rename_i hp
      cases h
      have hp := List.isPrefixOf_iff_prefix.1 hp
      obtain ⟨t, rfl⟩ := hp
      rfl
    · split at h
      · cases h
      · split at h <;> cases h
  · rintro rfl
    rw [if_pos (List.isPrefixOf_iff_prefix.2 (List.prefix_append _ _))]
    rfl

/-- a place asked for is that of its piece -/
def SpotAround (e : Mark → Rat) (k : Nat × TextPiece × Mark) (q : Nat × Rat × Rat × Rat) : Prop :=
  q.1 = k.1 ∧ |q.2.1 - (k.2.1.x + k.2.2.x)| ≤ e k.2.2 ∧ |q.2.2.1 - (k.2.1.y + (k.2.2.base + 3 * k.2.2.size / 4))| ≤ e k.2.2

theorem piece_spots {rnd : Rat → Rat} {δ : Rat} (hδ : ∀ v, |rnd v - v| ≤ δ) (width : Nat → Rat) (name : Str) {r : Painted} {m : TextPiece} {marks : List Mark} (hm : r.mark = some m)
    (h : MarksNoted ε r marks) : List.Forall₂ (SpotAround fun k => markErr ε k + δ)
      ((marksOf (c!"$label:" ++ name) marks).head?.toList.map fun k => (r.page, m, k)) (m.ids.flatMap (idSpots rnd width name ⟨r.page, m.x, m.y, m.ids⟩)) := by
  obtain ⟨h1, h2⟩ := h m hm
  have hnd : (m.ids.map Prod.fst).Nodup := h2 ▸ firsts_nodup _
  rw [dict_flatMap _ hnd]
  have other : ∀ id rects, id ≠ c!"$label:" ++ name → idSpots rnd width name ⟨r.page, m.x, m.y, m.ids⟩ (id, rects) = [] := by
    intro id rects hid
    unfold idSpots
    cases hk : idKind id with
    | label n =>
      cases rects with
      | nil => rfl
      | cons r rects =>
        obtain ⟨l, b, rr, t⟩ := r
        simp only
        rw [if_neg]
        rintro rfl
        exact hid (idKind_label.1 hk)
    | ref n => rfl
    | uri n => rfl
    | other => rfl
  have one : ((m.ids.map Prod.fst).flatMap fun id => idSpots rnd width name ⟨r.page, m.x, m.y, m.ids⟩ (id, (dget id m.ids).getD [])) =
      idSpots rnd width name ⟨r.page, m.x, m.y, m.ids⟩ (c!"$label:" ++ name, (dget (c!"$label:" ++ name) m.ids).getD []) := by
    by_cases hin : c!"$label:" ++ name ∈ m.ids.map Prod.fst
    · obtain ⟨l1, l2, e⟩ := List.append_of_mem hin
      rw [e] at hnd ⊢
      have h3 := List.nodup_append.1 hnd
      have h4 := List.nodup_cons.1 h3.2.1
      rw [List.flatMap_append, List.flatMap_cons, List.flatMap_eq_nil_iff.2, List.flatMap_eq_nil_iff.2]
      · simp
      · intro id hid
        exact other _ _ fun e => h4.1 (e ▸ hid)
      · intro id hid
        exact other _ _ fun e => h3.2.2 _ hid _ List.mem_cons_self e
    · rw [List.flatMap_eq_nil_iff.2]
      · have : dget (c!"$label:" ++ name) m.ids = none := by
          cases hd : dget (c!"$label:" ++ name) m.ids with
          | none => rfl
          | some v => exact absurd (List.mem_map.2 ⟨_, dget_mem hd, rfl⟩) hin
        rw [this]
        unfold idSpots
        rw [idKind_label.2 rfl]
        rfl
      · intro id hid
        exact other _ _ fun e => hin (e ▸ hid)
  rw [one]
  have hr := h1 (c!"$label:" ++ name)
  unfold idSpots
  rw [idKind_label.2 rfl]
  generalize marksOf (c!"$label:" ++ name) marks = ms at hr
  generalize (dget (c!"$label:" ++ name) m.ids).getD [] = rects at hr
  cases hr with
  | nil => exact .nil
  | @cons k q ks qs hk _ =>
    obtain ⟨l, b, rr, t⟩ := q
    obtain ⟨a1, -, -, a4⟩ := hk
    simp only [List.head?_cons, Option.toList_some, List.map_cons, List.map_nil, if_true]
    exact .cons ⟨rfl, moved_around hδ a1, moved_around hδ a4⟩ .nil

theorem piece_outlines (json : Str → Option (Int × Str × Str)) {r : Painted} {m : TextPiece} {marks : List Mark} (hm : r.mark = some m) (h : MarksNoted ε r marks) :
    idOutlines json m.ids = (firsts (markIds marks)).filterMap fun id => (outlineData id).bind json := by
  obtain ⟨h1, h2⟩ := h m hm
  have hnd : (m.ids.map Prod.fst).Nodup := h2 ▸ firsts_nodup _
  unfold idOutlines
  rw [← h2, List.filterMap_map]
  refine List.filterMap_congr fun e he => ?_
  have hd : dget e.1 m.ids = some e.2 := dget_of_mem hnd he
  have hin : e.1 ∈ markIds marks := mem_firsts.1 (h2 ▸ List.mem_map_of_mem he)
  obtain ⟨k, hk, hi⟩ := List.mem_flatMap.1 hin
  have hr := h1 e.1
  rw [hd, Option.getD_some] at hr
  have : e.2 ≠ [] := by
    intro e0
    rw [e0] at hr
    have hnil : marksOf e.1 marks = [] := by
      generalize marksOf e.1 marks = l at hr
      cases hr
      rfl
    have : k ∈ marksOf e.1 marks := List.mem_flatMap.2 ⟨k, hk, by
      rw [List.mem_replicate]
      exact ⟨by
        have := List.count_pos_iff.2 hi
        omega, rfl⟩⟩
    rw [hnil] at this
    cases this
  rw [if_neg this]
  rfl

end

end Verif
