import Verif.Spec.InNest
import Verif.Props.C83_InCells
import Verif.Props.C85_InBox
import Verif.Lemmas.Nest
/-!
# C87: tables and content boxes inside each other show nothing outside of their rectangle -/
namespace Verif
open Spec

variable {Λ Q σ P B C : Type}

/-! ### a table -/

/-- the lower end of a cell that is drawn, when the contents only keep to the rectangle that they get -/
theorem Spec.Drawing.floor_in [DecidableEq B] {T : TConf σ P B C} {X : Nat → Rat} {y : Rat} {late : Option (List (Nat × Delayed σ C))} {base last : Nat} {bottom floor : Rat} {rows : List (GridRow B)}
    {cells : List (Tile C)} {outs : List (Tile C × CellOut σ P B C)} {parts : List P} {lines : List (BLine B)} {fills : List (TFill C)}
    (h : Drawing T X y late base last bottom floor rows cells outs parts lines fills) {area : P → Area} (hk : KeepsIn area T.exec)
    {q : Tile C × CellOut σ P B C} (hq : q ∈ outs) {p : P} (hp : p ∈ q.2.parts) (hs : (area p).Seen) :
    (area p).Within ⟨X q.1.col + padLeft T late base q.1, X (q.1.col + q.1.cols + 1) - padRight T late base q.1, topY rows q.1.row - padTop T late base q.1,
      floor + padBottom T late base q.1⟩ := by
  obtain ⟨⟨c, -, hc⟩, -⟩ := h.ran q hq
  obtain ⟨a1, a2, a3, a4⟩ := hk _ _ _ _ _ _ hc p hp hs
  simp only at a1 a2 a3 a4
  exact ⟨a1, by simp only; linarith, a3, by simp only; linarith⟩

/-- a table keeps to its rectangle if its contents do -/
theorem table_in [DecidableEq B] {T : TConf σ P B C} (hrects : RectsOk T.content T.cols) (hflag : FlagOk T.content) (hborder : ∀ i j v, 0 ≤ (T.border i j v).width)
    {given : Option (List Rat)} (hcols : 0 < T.cols) (hwidths : tableWidths T.cols given = .ok T.widths) (hpos : ∀ v ∈ T.widths, 0 ≤ v)
    (hmargin : MarginsOk T.style) (hmargins : ∀ i j cell, cellAt T.content i j = some cell → MarginsOk cell.style) {area : P → Area} (hk : KeepsIn area T.exec)
    {x0 y0 w0 h0 : Rat} {rects : List (Rat × Rat × Rat × Rat)} {ps : List P} {s s' : TS σ P B C}
    (hs : (TS.new x0 y0 w0 h0).runs T rects = .ok (ps, s)) {x y w h : Rat} (hw : 0 ≤ w) (hr : s.run T x y w h = .ok s') :
    ∀ p ∈ s'.parts, (area p).Seen → (area p).Within ⟨x, x + w, y, y - h⟩ := by
  obtain ⟨w1, w2, -⟩ := C32_widths_normalised _ _ _ hwidths hcols
  rcases C66_lines_and_fills_partial T hrects hflag hborder given hcols hwidths x0 y0 w0 h0 rects ps s s' hs x y w h hr with h1 | ⟨rows, cells, outs, hd⟩
  · intro p hp
    rw [h1.2.1] at hp
    cases hp
  intro p hp hseen
  rw [hd.added] at hp
  obtain ⟨q, hq, hp⟩ := List.mem_flatMap.1 hp
  have hT : TableOk T := ⟨hrects, hflag, hborder, w1, w2⟩
  have hm : MarginsOk (heldAt T (if s.delayed.isEmpty then none else some s.delayed) s.index q.1.row q.1.col).style := by
    rcases heldAt_style (runs_between hT rects (between_new T x0 y0 w0 h0) hs).delayed s.index q.1.row q.1.col with h1 | ⟨i, j, cell, h1, h2⟩
    · rw [h1]; exact hmargin
    · rw [h2]; exact hmargins i j cell h1
  have hX : Monotone (colX T.widths x w) := by
    refine monotone_nat_of_le_succ fun n => ?_
    rw [← colX_next]
    have : 0 ≤ T.widths.getD n 0 := by
      rw [List.getD_eq_getElem?_getD]
      cases hv : T.widths[n]? with
      | none => simp
      | some v => simpa using hpos v (List.mem_of_getElem? hv)
    have := mul_nonneg this hw
    linarith
  have hqc : q.1 ∈ cells := hd.order.subset (List.mem_map_of_mem hq)
  obtain ⟨i1, i2⟩ := hd.inside q.1 hqc
  have hb := fun i j v => div_nonneg (hborder i j v) (show (0 : Rat) ≤ 2 by norm_num)
  obtain ⟨m1, m2, m3, m4⟩ := hm
  obtain ⟨a1, a2, a3, a4⟩ := hd.floor_in hk hq hp hseen
  simp only [padLeft, padRight, padTop, padBottom] at a1 a2 a3 a4
  refine ⟨?_, ?_, ?_, ?_⟩
  · have := hX (Nat.zero_le q.1.col)
    rw [show colX T.widths x w 0 = x by simp [colX]] at this
    show x ≤ _
    linarith [hb (s.index + q.1.row : Nat) q.1.col true]
  · have := hX (show q.1.col + q.1.cols + 1 ≤ T.cols from i2)
    rw [← hT.right] at this
    show _ ≤ x + w
    linarith [hb (s.index + q.1.row : Nat) (q.1.col + q.1.cols + 1 : Nat) true]
  · have := hd.tops (Nat.zero_le q.1.row) (by omega)
    rw [hd.top] at this
    show _ ≤ y
    linarith [hb (s.index + q.1.row : Nat) q.1.col false]
  · show y - h ≤ _
    linarith [hb (heldAt T (if s.delayed.isEmpty then none else some s.delayed) s.index q.1.row q.1.col).below q.1.col false]

/-! ### contents of some depth -/

/-- the contents keep to their rectangle where they have a width that is fine, and a width that is fine stays so -/
structure KeepsFine (area : P → Area) (fine : σ → Rat → Prop) (exec : σ → Rat → Rat → Rat → Rat → Except PyErr (CellOut σ P B C)) : Prop where
  keeps : ∀ c x y w h o, fine c w → exec c x y w h = .ok o → ∀ p ∈ o.parts, (area p).Seen → (area p).Within ⟨x, x + w, y, y - h⟩
  next : ∀ c x y w h o w', fine c w → exec c x y w h = .ok o → fine c w' → fine o.next w'

open Classical in
/-- `exec` where the width is fine -/
noncomputable def fineExec (fine : σ → Rat → Prop) (exec : σ → Rat → Rat → Rat → Rat → Except PyErr (CellOut σ P B C)) (c : σ) (x y w h : Rat) :
    Except PyErr (CellOut σ P B C) :=
  if fine c w then exec c x y w h else .error .exception

variable {area : P → Area} {fine : σ → Rat → Prop} {exec : σ → Rat → Rat → Rat → Rat → Except PyErr (CellOut σ P B C)}

theorem fineExec_ok {c : σ} {x y w h : Rat} {o : CellOut σ P B C} (ho : fineExec fine exec c x y w h = .ok o) : fine c w ∧ exec c x y w h = .ok o := by
  unfold fineExec at ho
  split at ho
  · exact ⟨by assumption, ho⟩
  · cases ho

theorem KeepsFine.same (G : KeepsFine area fine exec) : SameWhere fine exec (fineExec fine exec) where
  same := by
    intro c x y w h hk
    unfold fineExec
    rw [if_pos hk]
  next := by
    intro c x y w h o w' ho hk
    obtain ⟨h1, h2⟩ := fineExec_ok ho
    exact G.next _ _ _ _ _ _ _ h1 h2 hk

theorem KeepsFine.in_ (G : KeepsFine area fine exec) : KeepsIn area (fineExec fine exec) := by
  intro c x y w h o ho
  obtain ⟨h1, h2⟩ := fineExec_ok ho
  exact G.keeps _ _ _ _ _ _ h1 h2

theorem table_fine_in [DecidableEq B] (G : KeepsFine area fine exec) {D : TabData σ B C} {Ws : List Rat} (hD : TableIn fine D Ws) {rects : List (Rat × Rat × Rat × Rat)}
    (hW : ∀ r ∈ rects, r.2.2.1 ∈ Ws) {x0 y0 w0 h0 : Rat} {ps : List P} {s s' : TS σ P B C} (hs : (TS.new x0 y0 w0 h0).runs (D.conf exec) rects = .ok (ps, s)) {x y w h : Rat}
    (hw : w ∈ Ws) (hr : s.run (D.conf exec) x y w h = .ok s') : ∀ p ∈ s'.parts, (area p).Seen → (area p).Within ⟨x, x + w, y, y - h⟩ := by
  have hb : ∀ j, ∀ W ∈ Ws, ∀ i : Nat, fine (D.conf exec).blank (boxWidth (D.conf exec) W i j 0 (D.conf exec).style) := fun j W hW i => hD.blank W hW i j
  have hl : RowsFine (D.conf exec) fine Ws := fun i j c hc x hx W hW i' => hD.fits i j c x hc hx W hW i'
  obtain ⟨h1, h2⟩ := runs_cong (T := D.conf exec) G.same hb hl rects hW (LateFine.new x0 y0 w0 h0)
  have h3 := (run_cong (T := D.conf exec) G.same hb hl (x := x) (y := y) (h := h) hw (h2 ps s hs)).1
  obtain ⟨given, hg⟩ := hD.widths
  rw [← h1] at hs
  rw [← h3] at hr
  exact table_in (T := D.conf (fineExec fine exec)) hD.rects hD.flag hD.border hD.cols hg hD.pos hD.style hD.cells G.in_ hs (hD.wide w hw) hr

theorem box_fine_in (G : KeepsFine area fine exec) {els : List (CEl σ)} {Ws : List Rat} {gap : Option Rat} (hb : BoxIn fine gap els Ws) {fuel : Nat}
    {rects : List (Rat × Rat × Rat × Rat)} (hW : ∀ r ∈ rects, r.2.2.1 ∈ Ws) {ps : List (CPart P)} {s s' : CContent σ P B C}
    (hs : (CContent.new 1 gap els).runs exec fuel rects = .ok (ps, s)) {x y w h : Rat} (hw : w ∈ Ws) (hr : s.run exec fuel x y w h = .ok s') :
    ∀ p ∈ s'.out.parts, (cArea area p).Seen → (cArea area p).Within ⟨x, x + w, y, y - h⟩ := by
  obtain ⟨hg, m, m0, m1, m2⟩ := hb
  have he : ElsFine fine Ws els := by
    intro e he
    have ht := m2 e he
    cases e with
    | leaf c st => exact ht.2
    | image i => trivial
    | group l t st => exact ht.elim
    | child => exact ht.elim
  have hbox : ElIn True m w (.child 1 gap els ⟨0, 0, 0, 0, none, false, .flow⟩) := by
    refine .child ⟨le_refl _, le_refl _⟩ (by norm_num) hg (fun _ => rfl) (by rw [columnWidth_one]; exact m1 w hw) fun e he => ?_
    have ht := m2 e he
    cases e with
    | leaf c st => exact .leaf ht.1
    | image i => exact .image ht
    | group l t st => exact ht.elim
    | child => exact ht.elim
  have hcw : ∀ W ∈ Ws, colWidthOf 1 gap W ∈ Ws := fun W hW => by rw [colWidthOf_one]; exact hW
  obtain ⟨e1, e2⟩ := contentBox_runs_cong G.same rects (ContentFine.new 1 gap he) (fun r hr => hcw _ (hW r hr)) (fuel := fuel)
  have e3 := e2 ps s hs
  rw [← e1] at hs
  have hc : s.cols = 1 := by
    cases hbox with
    | child _ hc hg ho hw' he =>
      have h0 : ContentIn True m w (CContent.new 1 gap els : CContent σ P B C) := ⟨hc, ho, hg, m0, hw', he, by intro f hf; cases hf⟩
      exact (content_runs_one G.in_ fuel rects (fun r hr => m1 _ (hW r hr)) _ _ _ _ h0 hs).one_ trivial
  rw [← (contentBox_run_cong G.same e3 (by rw [hc, colWidthOf_one]; exact hw)).1] at hr
  exact C85_rectangle area _ G.in_ m w m0 1 gap els hbox fuel rects (fun r hr => m1 _ (hW r hr)) ps s s' hs x y h hr

theorem cArea_join (area : Q → Area) (p : CPart (TagPart Q)) : tagArea area p.join = cArea (tagArea area) p := by
  cases p <;> rfl

theorem node_keeps [DecidableEq B] {area : Q → Area} {leaf : Λ → Rat → Rat → Rat → Rat → Except PyErr (CellOut Λ Q B C)} (hleaf : KeepsIn area leaf) (fuel n : Nat)
    (G : KeepsFine (tagArea area) (nestIn n) (nestExec leaf fuel n : Nest Λ B C n → _)) :
    KeepsFine (tagArea area) (nestIn (n + 1)) (nestExec leaf fuel (n + 1) : Nest Λ B C (n + 1) → _) where
  keeps := by
    intro c x y w h o hc ho p hp hs
    match c, hc, ho with
    | .leaf tag l, hc, ho =>
      obtain ⟨o', h1, rfl⟩ := tagExec_ok ho
      obtain ⟨q, hq, rfl⟩ := List.mem_map.1 hp
      exact hleaf _ _ _ _ _ _ h1 q hq hs
    | .table D rects, hc, ho =>
      obtain ⟨ps, s, h1, ⟨-, rfl⟩ | ⟨s', h2, -, rfl⟩⟩ := tableExec_cases ho
      · cases hp
      · exact table_fine_in G hc (fun r hr => List.mem_cons_of_mem _ (List.mem_map_of_mem hr)) h1 (by simp) h2 p hp hs
    | .box gap els rects, hc, ho =>
      obtain ⟨ps, s, h1, ⟨-, rfl⟩ | ⟨s', -, h2, -, rfl⟩⟩ := boxExec_cases ho
      · cases hp
      · obtain ⟨q, hq, rfl⟩ := List.mem_map.1 hp
        rw [cArea_join] at hs ⊢
        exact box_fine_in G hc (fun r hr => List.mem_cons_of_mem _ (List.mem_map_of_mem hr)) h1 (by simp) h2 q hq hs
  next := by
    intro c x y w h o w' hc ho hc'
    match c, hc, ho, hc' with
    | .leaf tag l, hc, ho, hc' =>
      obtain ⟨o', h1, rfl⟩ := tagExec_ok ho
      trivial
    | .table D rects, hc, ho, hc' =>
      obtain ⟨ps, s, h1, ⟨-, rfl⟩ | ⟨s', h2, -, rfl⟩⟩ := tableExec_cases ho
      · exact hc'
      · have hW : ∀ {p : Rat → Prop}, (∀ W ∈ w :: rects.map (·.2.2.1), p W) → (∀ W ∈ w' :: rects.map (·.2.2.1), p W) →
            ∀ W ∈ w' :: (rects ++ [(x, y, w, h)]).map (·.2.2.1), p W := by
          intro p h1 h2 W hW
          simp only [List.map_append, List.map_cons, List.map_nil, List.mem_cons, List.mem_append, List.not_mem_nil, or_false] at hW
          rcases hW with hW | hW | hW
          · exact h2 W (by simp [hW])
          · exact h2 W (List.mem_cons_of_mem _ hW)
          · exact h1 W (by simp [hW])
        exact ⟨hc.rects, hc.flag, hc.border, hc.cols, hc.widths, hc.pos, hc.style, hc.cells, hW hc.wide hc'.wide, hW hc.blank hc'.blank,
          fun i j c x h1 h2 => hW (hc.fits i j c x h1 h2) (hc'.fits i j c x h1 h2)⟩
    | .box gap els rects, hc, ho, hc' =>
      obtain ⟨ps, s, h1, ⟨-, rfl⟩ | ⟨s', -, h2, -, rfl⟩⟩ := boxExec_cases ho
      · exact hc'
      · obtain ⟨hg, m, m0, m1, m2⟩ := hc
        obtain ⟨-, m', m0', m1', m2'⟩ := hc'
        have hW : ∀ {p p' q : Rat → Prop}, (∀ W, p W → q W) → (∀ W, p' W → q W) → (∀ W ∈ w :: rects.map (·.2.2.1), p W) → (∀ W ∈ w' :: rects.map (·.2.2.1), p' W) →
            ∀ W ∈ w' :: (rects ++ [(x, y, w, h)]).map (·.2.2.1), q W := by
          intro p p' q g g' h1 h2 W hW
          simp only [List.map_append, List.map_cons, List.map_nil, List.mem_cons, List.mem_append, List.not_mem_nil, or_false] at hW
          rcases hW with hW | hW | hW
          · exact g' _ (h2 W (by simp [hW]))
          · exact g' _ (h2 W (List.mem_cons_of_mem _ hW))
          · exact g _ (h1 W (by simp [hW]))
        refine ⟨hg, min m m', le_min m0 m0', hW (fun W h => le_trans (min_le_left _ _) h) (fun W h => le_trans (min_le_right _ _) h) m1 m1', fun e he => ?_⟩
        have t := m2 e he
        have t' := m2' e he
        cases e with
        | leaf c st => exact ⟨t.1, hW (fun _ h => h) (fun _ h => h) t.2 t'.2⟩
        | image i => exact ⟨t.1, le_min t.2.1 t'.2.1, t.2.2⟩
        | group l t st => exact t.elim
        | child => exact t.elim

theorem nest_keeps [DecidableEq B] {area : Q → Area} {leaf : Λ → Rat → Rat → Rat → Rat → Except PyErr (CellOut Λ Q B C)} (hleaf : KeepsIn area leaf) (fuel : Nat) :
    ∀ n, KeepsFine (tagArea area) (nestIn n) (nestExec leaf fuel n : Nest Λ B C n → _)
  | 0 => ⟨fun c => c.elim, fun c => c.elim⟩
  | n + 1 => node_keeps hleaf fuel n (nest_keeps hleaf fuel n)

theorem KeepsFine.steps (G : KeepsFine area fine exec) : ∀ (rects : List (Rat × Rat × Rat × Rat)) (c : σ), (∀ r ∈ rects, fine c r.2.2.1) → StepsIn area exec c rects
  | [], _, _ => trivial
  | (x, y, w, h) :: l, c, hc => fun o ho =>
    ⟨G.keeps c x y w h o (hc (x, y, w, h) (by simp)) ho,
      G.steps l _ fun r hr => G.next c x y w h o r.2.2.1 (hc (x, y, w, h) (by simp)) ho (hc r (by simp [hr]))⟩

/-- **C87.** A table or content box, with tables and content boxes inside each other to any depth, run in rectangles one after the other: of what it shows in one of
them nothing is outside of it, if this is so of the paragraphs and images in it. Partial: see DESIGN.md. -/
theorem C87_nested_partial [DecidableEq B] (area : Q → Area) (leaf : Λ → Rat → Rat → Rat → Rat → Except PyErr (CellOut Λ Q B C)) (hleaf : KeepsIn area leaf) (fuel n : Nat)
    (c : Nest Λ B C n) (rects : List (Rat × Rat × Rat × Rat)) (hc : ∀ r ∈ rects, nestIn n c r.2.2.1) : StepsIn (tagArea area) (nestExec leaf fuel n) c rects :=
  (nest_keeps hleaf fuel n).steps rects c hc

/-- C87 for paragraphs and images -/
theorem C87_document (T : TextEnv) (fuel n : Nat) (c : DocNest n) (rects : List (Rat × Rat × Rat × Rat)) (hc : ∀ r ∈ rects, nestIn n c r.2.2.1) :
    StepsIn (tagArea DocPart.area) (docNestExec T fuel n) c rects :=
  C87_nested_partial DocPart.area (docExec T) (keeps_in (doc_keeps T)) fuel n c rects hc

/-! ### a table in a box in a table -/

def blockAt (n : Nat) (c : Rat) : Nest Rat Nat Nat (n + 1) := Node.leaf 0 c

def blockNestTable (n : Nat) (content : List (List (Option (Cell (Nest Rat Nat Nat (n + 1)) Nat)))) (widths : List Rat) : TabData (Nest Rat Nat Nat (n + 1)) Nat Nat :=
  ⟨content, widths.length, widths, fun _ _ _ => ⟨2, 0⟩, fun _ _ => none, ⟨2, 1, 3, 1, none⟩, blockAt n 0⟩

def blockNestCell {σ : Type} (c : σ) : Option (Cell σ Nat) := some ⟨some c, 0, 0, ⟨2, 1, 3, 1, none⟩⟩

def blockInner : Nest Rat Nat Nat 2 := Node.table (blockNestTable 0 [[blockNestCell (blockAt 0 10), blockNestCell (blockAt 0 20)], [blockNestCell (blockAt 0 30), none]] [1 / 2, 1 / 2]) []
def blockMiddle : Nest Rat Nat Nat 3 := Node.box none [.leaf (blockAt 1 15) ⟨0, 5, 0, 0, none, false, .flow⟩, .image ⟨1, 100, 20, 0, ⟨0, 5, 4, 4, none, false, .flow⟩⟩,
  .leaf blockInner ⟨0, 5, 3, 3, none, false, .flow⟩] []
def blockOuter : Nest Rat Nat Nat 4 := Node.table (blockNestTable 2 [[blockNestCell blockMiddle, blockNestCell (blockAt 2 40)]] [2 / 3, 1 / 3]) []

def nestSides (c : Nest Rat Nat Nat 4) (x y w h : Rat) : Option (List (Rat × Rat × Rat × Rat) × Nest Rat Nat Nat 4) :=
  match nestExec blockExec 400 4 c x y w h with
  | .ok o => some (o.parts.map fun p => ((tagArea id p).left, (tagArea id p).right, (tagArea id p).top, (tagArea id p).bottom), o.next)
  | .error _ => none

/-- in a rectangle of height 100 the inner table is broken, and goes on in the next one; between the lines and the blocks there are half of a border and the margins of the
cells -/
example : (nestSides blockOuter 0 100 150 100).map (·.1) = some [(2, 98, 97, 82), (6, 94, 77, 297 / 5), (7, 48, 257 / 5, 207 / 5), (52, 93, 257 / 5, 157 / 5),
      (52, 93, 122 / 5, 122 / 5), (102, 148, 97, 57)] ∧
    ((nestSides blockOuter 0 100 150 100).bind fun r => nestSides r.2 0 200 150 200).map (·.1) = some [(7, 48, 194, 164), (52, 93, 194, 194), (102, 148, 197, 197)] := by
  decide +kernel

theorem cellAt_row {σ C : Type} {a b c : Option (Cell σ C)} {d : Cell σ C} {l : List (List (Option (Cell σ C)))} (hl : l = [] ∨ l = [[c, none]]) {i j : Nat}
    (h : cellAt ([a, b] :: l) i j = some d) : (i = 0 ∧ j = 0 ∧ a = some d) ∨ (i = 0 ∧ j = 1 ∧ b = some d) ∨ (i = 1 ∧ j = 0 ∧ c = some d) := by
  match i, j with
  | 0, 0 => exact .inl ⟨rfl, rfl, h⟩
  | 0, 1 => exact .inr (.inl ⟨rfl, rfl, h⟩)
  | 0, _ + 2 => cases h
  | i + 1, j =>
    rcases hl with rfl | rfl
    · cases h
    · match i, j with
      | 0, 0 => exact .inr (.inr ⟨rfl, rfl, h⟩)
      | 0, 1 => cases h
      | 0, _ + 2 => cases h
      | _ + 1, _ => cases h

/-- tables of two columns whose cells span nothing -/
theorem blockTable_in {n : Nat} {a b c : Nest Rat Nat Nat (n + 1)} {l : List (List (Option (Cell (Nest Rat Nat Nat (n + 1)) Nat)))} (hl : l = [] ∨ l = [[blockNestCell c, none]])
    {ws : List Rat} (hw : ws = [1 / 2, 1 / 2] ∨ ws = [2 / 3, 1 / 3]) {W : Rat} (hW : 0 ≤ W)
    (hfine : ∀ i j x, j = 0 ∧ x = a ∨ j = 1 ∧ x = b ∨ j = 0 ∧ x = c →
      nestIn (n + 1) x (innerWidth (blockNestTable n ([blockNestCell a, blockNestCell b] :: l) ws) W i j 0 ⟨2, 1, 3, 1, none⟩)) :
    TableIn (nestIn (n + 1)) (blockNestTable n ([blockNestCell a, blockNestCell b] :: l) ws) [W] := by
  have hstyle : MarginsOk (⟨2, 1, 3, 1, none⟩ : CellStyle Nat) := ⟨by norm_num, by norm_num, by norm_num, by norm_num⟩
  have hc : ∀ {i j d}, cellAt ([blockNestCell a, blockNestCell b] :: l) i j = some d → ∃ x, d = ⟨some x, 0, 0, ⟨2, 1, 3, 1, none⟩⟩ ∧ (i = 0 ∧ j = 0 ∧ x = a ∨ i = 0 ∧ j = 1 ∧ x = b ∨
      i = 1 ∧ j = 0 ∧ x = c) := by
    intro i j d h
    rcases cellAt_row hl h with ⟨h1, h2, e⟩ | ⟨h1, h2, e⟩ | ⟨h1, h2, e⟩ <;> cases e
    · exact ⟨_, rfl, .inl ⟨h1, h2, rfl⟩⟩
    · exact ⟨_, rfl, .inr (.inl ⟨h1, h2, rfl⟩)⟩
    · exact ⟨_, rfl, .inr (.inr ⟨h1, h2, rfl⟩)⟩
  refine ⟨⟨?_, ?_⟩, .inl ?_, ?_, ?_, ?_, ?_, hstyle, ?_, ?_, ?_, ?_⟩
  · intro i j c i' j' c' p q h h'
    obtain ⟨_, rfl, -⟩ := hc h
    obtain ⟨_, rfl, -⟩ := hc h'
    simp only
    omega
  · intro i j c h
    have h1 : i < ([blockNestCell a, blockNestCell b] :: l).length := by
      by_contra hn
      have h : cellAt ([blockNestCell a, blockNestCell b] :: l) i j = some c := h
      rw [cellAt, List.getElem?_eq_none (not_lt.1 hn)] at h
      cases h
    obtain ⟨_, rfl, h⟩ := hc h
    have h2 : (blockNestTable n ([blockNestCell a, blockNestCell b] :: l) ws).cols = 2 := by rcases hw with rfl | rfl <;> rfl
    rw [h2]
    exact ⟨h1, by show j + 0 < 2; omega⟩
  · intro i j c h
    obtain ⟨_, rfl, -⟩ := hc h
    exact .inl (Nat.zero_le 1)
  · intro i j v; exact (by norm_num : (0 : Rat) ≤ 2)
  · rcases hw with rfl | rfl <;> exact Nat.zero_lt_two
  · rcases hw with rfl | rfl
    · exact ⟨none, show tableWidths 2 none = .ok [1 / 2, 1 / 2] by decide +kernel⟩
    · exact ⟨some [2, 1], show tableWidths 2 (some [2, 1]) = .ok [2 / 3, 1 / 3] by decide +kernel⟩
  · rcases hw with rfl | rfl <;> intro v hv <;> simp only [blockNestTable, List.mem_cons, List.not_mem_nil, or_false] at hv <;> rcases hv with rfl | rfl <;> norm_num
  · intro i j c h
    obtain ⟨_, rfl, -⟩ := hc h
    exact hstyle
  · intro V hV
    rw [List.mem_singleton.1 hV]
    exact hW
  · intro V hV i j
    trivial
  · intro i j d x hd hx V hV i'
    rw [List.mem_singleton.1 hV]
    obtain ⟨_, rfl, h⟩ := hc hd
    cases hx
    exact hfine i' j x (by tauto)

theorem blockOuter_in : nestIn 4 blockOuter 150 := by
  refine blockTable_in (n := 2) (c := blockAt 2 0) (.inl rfl) (.inr rfl) (by norm_num) ?_
  rintro i j x (⟨rfl, rfl⟩ | ⟨rfl, rfl⟩ | ⟨rfl, rfl⟩)
  · have hw : innerWidth (blockNestTable 2 [[blockNestCell blockMiddle, blockNestCell (blockAt 2 40)]] [2 / 3, 1 / 3]) 150 i 0 0 ⟨2, 1, 3, 1, none⟩ = 96 := by
      norm_num [innerWidth, blockNestTable, cellWidth]
    rw [hw]
    have tidy : ∀ a b c d : Rat, 0 ≤ a → 0 ≤ b → 0 ≤ c → 0 ≤ d → StyleTidy ⟨a, b, c, d, none, false, .flow⟩ := fun a b c d h1 h2 h3 h4 => ⟨h1, h2, h3, h4⟩
    refine ⟨(by intro g hg; cases hg), 96, by norm_num, ?_, ?_⟩
    · intro W hW
      rw [List.mem_singleton.1 hW]
    · intro e he
      simp only [List.mem_cons, List.not_mem_nil, or_false] at he
      rcases he with rfl | rfl | rfl
      · exact ⟨tidy _ _ _ _ (by norm_num) (by norm_num) (by norm_num) (by norm_num), fun _ _ => trivial⟩
      · exact ⟨tidy _ _ _ _ (by norm_num) (by norm_num) (by norm_num) (by norm_num), by norm_num, by norm_num, by norm_num, by intro q hq; cases hq⟩
      · refine ⟨tidy _ _ _ _ (by norm_num) (by norm_num) (by norm_num) (by norm_num), fun W hW => ?_⟩
        rw [List.mem_singleton.1 hW]
        refine blockTable_in (n := 0) (c := blockAt 0 30) (.inr rfl) (.inl rfl) (by norm_num) ?_
        rintro i j x (⟨rfl, rfl⟩ | ⟨rfl, rfl⟩ | ⟨rfl, rfl⟩) <;> trivial
  · trivial
  · trivial

/-- C87 for it -/
example (fuel : Nat) (l : List (Rat × Rat × Rat)) : StepsIn (tagArea id) (nestExec blockExec fuel 4) blockOuter (l.map fun q => (q.1, q.2.1, 150, q.2.2)) :=
  C87_nested_partial id blockExec (keeps_in block_keeps) fuel 4 blockOuter _ fun r hr => by
    obtain ⟨q, -, rfl⟩ := List.mem_map.1 hr
    exact blockOuter_in

end Verif
