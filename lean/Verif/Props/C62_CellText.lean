import Verif.Lemmas.CellText
import Verif.Lemmas.TableCong
import Verif.Props.C31_Height
/-! C62: the words and images of the cells of a table. -/
namespace Verif
open Spec

variable {B C : Type}

/-- a table of paragraphs and images, none of which was run; positions that are `None` show a paragraph without words -/
structure Spec.LeafTable (T : TConf Leaf LeafPart B C) : Prop where
  fresh : ∀ i j c x, cellAt T.content i j = some c → c.content = some x → FreshLeaf x
  blank : ∃ cfg, T.blank = .par cfg [] ∧ 0 < cfg.lineHeight ∧ cfg.content = []

/-- the contents can be shown in their boxes when the table has one of these widths: line heights are positive, and so are the sizes of
images and the widths of their boxes -/
def Spec.BoxesOk (T : TConf Leaf LeafPart B C) (Ws : List Rat) : Prop :=
  ∀ i j c x, cellAt T.content i j = some c → c.content = some x → ∀ W ∈ Ws, ∀ i' : Nat, LeafOk x (boxWidth T W i' j c.cols c.style)

theorem leaf_same (M : Metrics) : SameWhere LeafOk (leafExec M : Leaf → Rat → Rat → Rat → Rat → Except PyErr (CellOut Leaf LeafPart B C)) (leafSafe M) where
  same := by
    intro c x y w h hk
    unfold leafSafe
    rw [if_pos hk]
  next := by
    intro c x y w h o w' ho hk
    exact leafExec_next (leafSafe_ok ho).2 hk

theorem leafRest_fresh (M : Metrics) {c : Leaf} (h : FreshLeaf c) : leafRest M c = leafAtoms c := by
  cases c with
  | par cfg rs =>
    have : rs = [] := h
    subst this
    simp [leafRest, leafAtoms, parRest_new]
  | image im shown =>
    have : shown = false := h
    subst this
    simp [leafRest, leafAtoms]

theorem cellAtoms_fresh (M : Metrics) {T : TConf Leaf LeafPart B C} (h : LeafTable T) (i j : Nat) :
    cellAtoms (leafRest M) T.content i j = cellAtoms leafAtoms T.content i j := by
  unfold cellAtoms
  cases hc : cellAt T.content i j with
  | none => rfl
  | some c =>
    cases hx : c.content with
    | none => simp [hx, restOf]
    | some x => simp [hx, restOf, leafRest_fresh M (h.fresh i j c x hc hx)]

theorem blank_rest (M : Metrics) {T : TConf Leaf LeafPart B C} (h : LeafTable T) : leafRest M T.blank = [] := by
  obtain ⟨cfg, hb, -, hc⟩ := h.blank
  rw [hb, leafRest_fresh M (c := .par cfg []) rfl]
  simp [leafAtoms, hc, wordsOf, wordState, wordStep]

theorem safe_runs [DecidableEq B] (M : Metrics) {T : TConf Leaf LeafPart B C} (hT : T.exec = leafExec M) (h : LeafTable T)
    {rects : List (Rat × Rat × Rat × Rat)} {Ws : List Rat} (hb : BoxesOk T Ws) (hW : ∀ r ∈ rects, r.2.2.1 ∈ Ws) (x y w h0 : Rat) :
    (TS.new x y w h0).runs { T with exec := leafSafe M } rects = (TS.new x y w h0).runs T rects ∧
    ∀ ps s, (TS.new x y w h0).runs T rects = .ok (ps, s) → LateFine T LeafOk Ws s := by
  have hl := leaf_same (B := B) (C := C) M
  rw [← hT] at hl
  obtain ⟨cfg, hbl, hpos, -⟩ := h.blank
  exact runs_cong hl (fun j W _ i => by rw [hbl]; exact hpos) (fun i j c hc x hx W hW i' => hb i j c x hc hx W hW i') rects hW (LateFine.new x y w h0)

/-- C62 (partial): the cells of a table of paragraphs and images show their words and images, in order and once, whatever the rectangles: what is shown can
be labelled with positions of the grid such that every position has the first words and images of its content, and all of them once the table
is finished. Partial because of the row spans in the first row (`C33_first_row_lost_false`) and of boxes without width (`C62_narrow_image_false`). -/
theorem C62_words_partial [DecidableEq B] (M : Metrics) (T : TConf Leaf LeafPart B C) (hT : T.exec = leafExec M) (hl : LeafTable T)
    (hok : SpansOk T.content) (hst : CellStylesOk T) (hcols : T.cols ≠ 0)
    (hfirst : ∀ j c, cellAt T.content 0 j = some c → c.rows = 0) (x y w h : Rat) (rects : List (Rat × Rat × Rat × Rat))
    (hbox : BoxesOk T (rects.map (·.2.2.1)))
    (ps : List LeafPart) (s : TS Leaf LeafPart B C) (hr : (TS.new x y w h).runs T rects = .ok (ps, s)) :
    ∃ t : List ((Nat × Nat) × LAtom), t.map Prod.snd = ps.flatMap leafPartAtoms ∧
      (∀ i j, labelled t i j <+: cellAtoms leafAtoms T.content i j) ∧
      (s.finished = true → ∀ i j, labelled t i j = cellAtoms leafAtoms T.content i j) := by
  obtain ⟨e, -⟩ := safe_runs M hT hl hbox (fun r hr => List.mem_map_of_mem hr) x y w h
  rw [← e] at hr
  obtain ⟨t, a1, a2, a3, -⟩ := C33_cells_partial { T with exec := leafSafe M } leafPartAtoms (leafRest M) (leafSafe_honest M) (show leafRest M T.blank = [] from blank_rest M hl) hok
    ⟨hst.border, hst.style, hst.cells⟩ hcols hfirst x y w h rects ps s hr
  simp only [cellAtoms_fresh M hl] at a2 a3
  exact ⟨t, a1, a2, a3⟩

/-- C62 (partial): if no cell spans rows, they are shown row after row -/
theorem C62_rows_partial [DecidableEq B] (M : Metrics) (T : TConf Leaf LeafPart B C) (hT : T.exec = leafExec M) (hl : LeafTable T)
    (hok : SpansOk T.content) (hrows : ∀ i j c, cellAt T.content i j = some c → c.rows = 0) (hst : CellStylesOk T) (hcols : T.cols ≠ 0)
    (x y w h : Rat) (rects : List (Rat × Rat × Rat × Rat)) (hbox : BoxesOk T (rects.map (·.2.2.1)))
    (ps : List LeafPart) (s : TS Leaf LeafPart B C) (hr : (TS.new x y w h).runs T rects = .ok (ps, s)) :
    ∃ t : List ((Nat × Nat) × LAtom), t.map Prod.snd = ps.flatMap leafPartAtoms ∧ RowOrder leafAtoms T.content t ∧
      (∀ i j, labelled t i j <+: cellAtoms leafAtoms T.content i j) ∧
      (s.finished = true → ∀ i j, labelled t i j = cellAtoms leafAtoms T.content i j) := by
  obtain ⟨e, -⟩ := safe_runs M hT hl hbox (fun r hr => List.mem_map_of_mem hr) x y w h
  rw [← e] at hr
  obtain ⟨t, a1, a3, a4, a2⟩ := C33_cells_partial { T with exec := leafSafe M } leafPartAtoms (leafRest M) (leafSafe_honest M) (show leafRest M T.blank = [] from blank_rest M hl) hok
    ⟨hst.border, hst.style, hst.cells⟩ hcols (fun j c hc => hrows 0 j c hc) x y w h rects ps s hr
  have a2 := a2 hrows
  unfold RowOrder at a2
  simp only [cellAtoms_fresh M hl] at a2 a3 a4
  exact ⟨t, a1, a2, a3, a4⟩

/-! ### the height of such a table -/

theorem leafSafe_fits (M : Metrics) : Spec.Fits (leafSafe M : Leaf → Rat → Rat → Rat → Rat → Except PyErr (CellOut Leaf LeafPart B C)) := by
  intro c x y w h o ho hpos
  obtain ⟨hk, ho⟩ := leafSafe_ok ho
  rcases leafExec_cases ho with ⟨cfg, rs, rfl, hf, rfl⟩ | ⟨cfg, rs, rfl, hf, rfl⟩ | ⟨im, rfl, rfl⟩ | ⟨im, rfl, -, hh, rfl⟩ | ⟨im, rfl, -, -, rfl⟩
  · exact absurd hpos (lt_irrefl _)
  · have hp := textRun_pos M cfg hk w h _ (textRuns_valid M cfg rs hf) hf
    by_cases hn : (textRun M cfg w h (textRuns M cfg rs TPos.init).1).lines = []
    · simp only [(hp.nil hn).1] at hpos
      exact absurd hpos (lt_irrefl _)
    · exact (hp.pos hn).2
  · exact absurd hpos (lt_irrefl _)
  · exact hh.le
  · exact absurd hpos (lt_irrefl _)

/-- a content of which something is left -/
def leafOpen (M : Metrics) : Leaf → Prop
  | .par cfg rs => (textRuns M cfg rs TPos.init).1.finished = false
  | .image _ shown => shown = false

theorem leafSafe_solid (M : Metrics) : Solid (leafSafe M : Leaf → Rat → Rat → Rat → Rat → Except PyErr (CellOut Leaf LeafPart B C)) (leafOpen M) where
  done := by
    intro c x y w h o hg ho hfin
    obtain ⟨hk, ho⟩ := leafSafe_ok ho
    rcases leafExec_cases ho with ⟨cfg, rs, rfl, hf, rfl⟩ | ⟨cfg, rs, rfl, hf, rfl⟩ | ⟨im, rfl, rfl⟩ | ⟨im, rfl, -, hh, rfl⟩ | ⟨im, rfl, -, -, rfl⟩
    · have : (textRuns M cfg rs TPos.init).1.finished = false := hg
      rw [hf] at this
      cases this
    · have hp := textRun_pos M cfg hk w h _ (textRuns_valid M cfg rs hf) hf
      refine (hp.pos ?_).1
      intro hn
      have := (hp.nil hn).2
      rw [show (textRun M cfg w h (textRuns M cfg rs TPos.init).1).pos.finished = true from hfin] at this
      cases this
    · cases hg
    · exact image_height_pos hk
    · cases hfin
  next := by
    intro c x y w h o hg ho hfin
    obtain ⟨hk, ho⟩ := leafSafe_ok ho
    rcases leafExec_cases ho with ⟨cfg, rs, rfl, hf, rfl⟩ | ⟨cfg, rs, rfl, hf, rfl⟩ | ⟨im, rfl, rfl⟩ | ⟨im, rfl, -, hh, rfl⟩ | ⟨im, rfl, -, -, rfl⟩
    · cases hfin
    · show (textRuns M cfg (rs ++ [(w, h)]) TPos.init).1.finished = false
      rw [textRuns_snoc, if_neg (by simp [hf])]
      exact hfin
    · cases hfin
    · cases hfin
    · rfl

theorem fresh_open (M : Metrics) {c : Leaf} (h : FreshLeaf c) : leafOpen M c := by
  cases c with
  | par cfg rs =>
    have : rs = [] := h
    subst this
    rfl
  | image im shown => exact h

/-- C31 (partial) for paragraphs and images: a table of plain cells stays within its rectangle, or it exceeds it by at most 4 points and a cell is left for
the next rectangle -/
theorem C31_words_partial [DecidableEq B] (M : Metrics) (T : TConf Leaf LeafPart B C) (hT : T.exec = leafExec M) (hl : LeafTable T)
    (hplain : ∀ i j c, cellAt T.content i j = some c → c.rows = 0 ∧ c.cols = 0 ∧ c.content.isSome)
    (rects : List (Rat × Rat × Rat × Rat)) (hrects : ∀ r ∈ rects, 4 ≤ r.2.2.2) (x0 y0 w0 h0 : Rat) (ps : List LeafPart) (s s' : TS Leaf LeafPart B C)
    (hr : (TS.new x0 y0 w0 h0).runs T rects = .ok (ps, s)) (x y w h : Rat) (hh : 4 ≤ h) (hbox : BoxesOk T (w :: rects.map (·.2.2.1)))
    (hlast : s.run T x y w h = .ok s') :
    s'.currentHeight ≤ h + 4 ∧ (s'.delayed = [] → s'.currentHeight ≤ h) := by
  obtain ⟨e, e2⟩ := safe_runs M hT hl hbox (fun r hr => List.mem_cons_of_mem _ (List.mem_map_of_mem hr)) x0 y0 w0 h0
  have hsame := leaf_same (B := B) (C := C) M
  rw [← hT] at hsame
  obtain ⟨cfg, hbl, hpos, -⟩ := hl.blank
  have e3 := (run_cong (x := x) (y := y) (h := h) hsame (fun j W _ i => by rw [hbl]; exact hpos) (fun i j c hc x hx W hW i' => hbox i j c x hc hx W hW i')
    (List.mem_cons_self (a := w)) (e2 ps s hr)).1
  have hopen : leafOpen M T.blank := by rw [hbl]; rfl
  refine C31_height_partial { T with exec := leafSafe M } (leafOpen M) (leafSafe_fits M) (leafSafe_solid M) ?_ (Or.inl hopen) rects hrects x0 y0 w0 h0 ps s s'
    (e.trans hr) x y w h hh (e3.trans hlast)
  intro row hrow el hel
  cases el with
  | none => exact Or.inr ⟨rfl, hopen⟩
  | some c =>
    obtain ⟨i, hi⟩ := List.mem_iff_getElem?.1 hrow
    obtain ⟨j, hj⟩ := List.mem_iff_getElem?.1 hel
    have hc : cellAt T.content i j = some c := by unfold cellAt; rw [hi, Option.bind_some, hj]; rfl
    obtain ⟨h1, h2, h3⟩ := hplain i j c hc
    obtain ⟨x, hx⟩ := Option.isSome_iff_exists.1 h3
    refine Or.inl ⟨x, c.style, ?_, fresh_open M (hl.fresh i j c x hc hx)⟩
    obtain ⟨a, b, c', d⟩ := c
    simp only at h1 h2 hx
    subst h1 h2 hx
    rfl

/-! ### a table of a paragraph and an image -/

section Example
private def ex62Look : TLook := ⟨⟨c!"Helvetica", c!"n", c!"F1", 10, ⟨none, false⟩, 0⟩, false, ⟨none, false⟩, none⟩
private def ex62M : Metrics := fun _ _ _ => 1 / 2
private def ex62Cfg (t : Str) : TCfg := ⟨[.text (splitWords t) ex62Look none], 0, c!"l", 1, none⟩
private def ex62Im : PImg := ⟨c!"im", 20, 10, []⟩

/-- a table of contents `leafExec` runs, with borders of 1 point and margins of 1 point -/
def leafTable (content : List (List (Option (Cell Leaf Unit)))) (widths : List Rat) : TConf Leaf LeafPart Unit Unit :=
  ⟨content, widths.length, widths, fun _ _ _ => ⟨1, ()⟩, fun _ _ => none, ⟨1, 1, 1, 1, none⟩, .par ⟨[], 0, c!"l", 1, none⟩ [], leafExec fun _ _ _ => 1 / 2⟩

/-- the words of a paragraph, `I` for an image -/
def partWords (p : LeafPart) : List Str := (leafPartAtoms p).map fun
  | .word w => (w.map fun x => x.1).flatten
  | .image _ => c!"I"

/-- the words shown, run by run, and whether the table is finished -/
def leafShown (content : List (List (Option (Cell Leaf Unit)))) (widths : List Rat) (heights : List Rat) : Except PyErr (List Str × Bool) :=
  ((TS.new 0 0 100 100).runs (leafTable content widths) (heights.map fun h => (0, h, 100, h))).map fun r => (r.1.flatMap partWords, r.2.finished)

def leafCell (l : Leaf) : Option (Cell Leaf Unit) := some ⟨some l, 0, 0, ⟨1, 1, 1, 1, none⟩⟩

example : leafShown [[leafCell (.par (ex62Cfg c!"one two three four") []), leafCell (.image ex62Im false)], [none, leafCell (.par (ex62Cfg c!"five") [])]]
    [1/2, 1/2] [20, 40, 60] = .ok ([c!"one", c!"two", c!"three", c!"four", c!"I", c!"five"], true) := by
  decide +kernel

/-- the theorem applies to this table and any rectangles 100 points wide -/
example (heights : List Rat) (ps : List LeafPart) (s : TS Leaf LeafPart Unit Unit)
    (hr : (TS.new 0 0 100 100).runs (leafTable [[leafCell (.par (ex62Cfg c!"one two three four") []), leafCell (.image ex62Im false)]] [1/2, 1/2])
      (heights.map fun h => (0, h, 100, h)) = .ok (ps, s)) (hf : s.finished = true) :
    ∃ t : List ((Nat × Nat) × LAtom), t.map Prod.snd = ps.flatMap leafPartAtoms ∧ labelled t 0 1 = [.image ex62Im] := by
  have hcell : ∀ i j c, cellAt (leafTable [[leafCell (.par (ex62Cfg c!"one two three four") []), leafCell (.image ex62Im false)]] [1/2, 1/2]).content i j = some c →
      (i = 0 ∧ j = 0 ∧ c = ⟨some (.par (ex62Cfg c!"one two three four") []), 0, 0, ⟨1, 1, 1, 1, none⟩⟩) ∨
      (i = 0 ∧ j = 1 ∧ c = ⟨some (.image ex62Im false), 0, 0, ⟨1, 1, 1, 1, none⟩⟩) := by
    intro i j c hc
    rcases i with _ | i
    · rcases j with _ | _ | j
      · left; exact ⟨rfl, rfl, by simpa [cellAt, leafTable, leafCell] using hc.symm⟩
      · right; exact ⟨rfl, rfl, by simpa [cellAt, leafTable, leafCell] using hc.symm⟩
      · simp [cellAt, leafTable] at hc
    · simp [cellAt, leafTable] at hc
  suffices hh : ∃ t : List ((Nat × Nat) × LAtom), t.map Prod.snd = ps.flatMap leafPartAtoms ∧
      (∀ i j, labelled t i j <+: cellAtoms leafAtoms (leafTable [[leafCell (.par (ex62Cfg c!"one two three four") []), leafCell (.image ex62Im false)]] [1/2, 1/2]).content i j) ∧
      (s.finished = true → ∀ i j, labelled t i j = cellAtoms leafAtoms (leafTable [[leafCell (.par (ex62Cfg c!"one two three four") []), leafCell (.image ex62Im false)]] [1/2, 1/2]).content i j) by
    obtain ⟨t, a1, -, a2⟩ := hh
    refine ⟨t, a1, ?_⟩
    rw [a2 hf 0 1]
    rfl
  refine C62_words_partial _ _ rfl ⟨?_, _, rfl, by norm_num, rfl⟩ ?_ ⟨fun _ _ _ => by norm_num [leafTable], by norm_num [leafTable], ?_⟩ (by decide) ?_ 0 0 100 100 _ ?_ ps s hr
  · intro i j c x hc hx
    rcases hcell i j c hc with ⟨-, -, rfl⟩ | ⟨-, -, rfl⟩ <;> · cases hx; rfl
  · intro i j c hc i' j' h1 h2 h3 h4 h5
    rcases hcell i j c hc with ⟨-, -, rfl⟩ | ⟨-, -, rfl⟩ <;> exact absurd (by rw [Prod.mk.injEq]; constructor <;> (simp only at h2 h4; omega)) h5
  · intro i j c hc
    rcases hcell i j c hc with ⟨-, -, rfl⟩ | ⟨-, -, rfl⟩ <;> norm_num
  · intro j c hc
    rcases hcell 0 j c hc with ⟨-, -, rfl⟩ | ⟨-, -, rfl⟩ <;> rfl
  · intro i j c x hc hx W hW i'
    have : W = 100 := by
      simp only [List.map_map, List.mem_map] at hW
      obtain ⟨_, -, rfl⟩ := hW
      rfl
    subst this
    rcases hcell i j c hc with ⟨-, rfl, rfl⟩ | ⟨-, rfl, rfl⟩ <;> cases hx
    · norm_num [LeafOk, ex62Cfg]
    · norm_num [LeafOk, ex62Im, boxWidth, leafTable, cellWidth]

/-- C62 fails for an image whose box has no width: in the first row it counts as shown but has no height, and if no other cell has any the run is undone -/
theorem C62_narrow_image_false :
    let content := [[leafCell (.image ⟨c!"im", 20, 10, []⟩ false), leafCell (.par (ex62Cfg c!"one two") [])]]
    leafShown content [0, 1] [10, 40] = .ok ([c!"one", c!"two"], true) ∧
    (cellAtoms leafAtoms content 0 0).length = 1 ∧ ∀ i j, (i, j) ≠ (0, 0) → ∀ x ∈ cellAtoms leafAtoms content i j, ∃ w, x = .word w := by
  refine ⟨by decide +kernel, rfl, ?_⟩
  intro i j hij x hx
  rcases i with _ | i
  · rcases j with _ | _ | j
    · exact absurd rfl hij
    · simp only [cellAtoms, cellAt, leafCell, List.getElem?_cons_zero, List.getElem?_cons_succ, Option.bind_some, Option.join_some, restOf, leafAtoms, List.mem_map, zero_add] at hx
      obtain ⟨w, -, rfl⟩ := hx
      exact ⟨w, rfl⟩
    · simp [cellAtoms, cellAt, restOf] at hx
  · simp [cellAtoms, cellAt, restOf] at hx

end Example

end Verif
