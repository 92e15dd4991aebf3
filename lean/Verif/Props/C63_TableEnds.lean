import Verif.Lemmas.TableEnds
import Verif.Props.C62_CellText
import Mathlib.Tactic.Linarith
/-! C63: adding a table to a document comes to an end. -/
namespace Verif
open Spec

variable {B C : Type}

/-- the content is not higher than a box: every line of a paragraph fits into it, and an image is lower -/
def Spec.LeafLow : Leaf → Rat → Rat → Prop
  | .par cfg _, _, h => TallEnough cfg h
  | .image im _, w, h => im.width ≠ 0 ∧ w * im.height / im.width < h

/-- the number of words and items of a paragraph -/
def Spec.leafItems : Leaf → Nat
  | .par cfg _ => (cfg.content.map fun | .text ws _ _ => ws.length + 1 | _ => 1).sum
  | .image _ _ => 0

/-- the number of cells, rows, words and items of a table -/
def Spec.tableItems (content : List (List (Option (Cell Leaf C)))) : Nat :=
  (content.map fun row => 1 + (row.map fun
    | some ⟨some x, _, _, _⟩ => leafItems x + 1
    | _ => 1).sum).sum

/-- a table whose rows have as many cells as there are columns, whose cells have contents and span no rows, and which has only contents that
fit into a page of width `W` and height `H` -/
structure Spec.TableLow (T : TConf Leaf LeafPart B C) (W H : Rat) : Prop where
  leaves : LeafTable T
  cols : T.cols ≠ 0
  square : ∀ row ∈ T.content, row.length = T.cols
  cells : ∀ i j c, cellAt T.content i j = some c → c.rows = 0 ∧ ∃ x, c.content = some x ∧ LeafLow x (boxWidth T W i j c.cols c.style) (boxHeight T H i j c.style)
  blank : ∀ i j, LeafLow T.blank (boxWidth T W i j 0 T.style) (boxHeight T H i j T.style)

/-- what is left of a content -/
def leafLeft (M : Metrics) : Leaf → Nat
  | .par cfg rs => (cfg.content.map itemSize).sum - rank cfg.content (textRuns M cfg rs TPos.init).1.lastPart (textRuns M cfg rs TPos.init).1.lastWord
  | .image _ _ => 0

theorem leaf_ends (M : Metrics) : Ends (leafExec M : Leaf → Rat → Rat → Rat → Rat → Except PyErr (CellOut Leaf LeafPart B C)) LeafLow (leafLeft M) where
  shrink := by
    intro c x y w h o hfit ho hfin
    rcases leafExec_cases ho with ⟨cfg, rs, rfl, hf, rfl⟩ | ⟨cfg, rs, rfl, hf, rfl⟩ | ⟨im, rfl, rfl⟩ | ⟨im, rfl, -, hh, rfl⟩ | ⟨im, rfl, -, hh, rfl⟩
    · cases hfin
    · have e := textRuns_snoc M cfg w h rs TPos.init
      rw [if_neg (by simp [hf])] at e
      have hf2 : (textRuns M cfg (rs ++ [(w, h)]) TPos.init).1.finished = false := by rw [e]; exact hfin
      have hv := textRuns_valid M cfg (rs ++ [(w, h)]) hf2
      have h1 := rank_le _ _ _ hv
      rcases textRun_progress M cfg w h hfit _ (textRuns_valid M cfg rs hf) with h2 | h2
      · have hfin' : (textRun M cfg w h (textRuns M cfg rs TPos.init).1).pos.finished = false := hfin
        rw [h2] at hfin'
        cases hfin'
      · simp only [leafLeft]
        rw [e] at h1 ⊢
        simp only at h1 ⊢
        omega
    · cases hfin
    · cases hfin
    · exact absurd hfit.2 hh
  keep := by
    intro c x y w h o w' h' hfit ho
    rcases leafExec_cases ho with ⟨cfg, rs, rfl, hf, rfl⟩ | ⟨cfg, rs, rfl, hf, rfl⟩ | ⟨im, rfl, rfl⟩ | ⟨im, rfl, -, hh, rfl⟩ | ⟨im, rfl, -, hh, rfl⟩ <;> exact hfit

theorem leafItems_eq (M : Metrics) {c : Leaf} (hc : FreshLeaf c) : leafLeft M c = leafItems c := by
  cases c with
  | par cfg rs =>
    have : rs = [] := hc
    subst this
    simp only [leafLeft, leafItems]
    have e : rank cfg.content (textRuns M cfg [] TPos.init).1.lastPart (textRuns M cfg [] TPos.init).1.lastWord = 0 := by
      simp [textRuns, TPos.init, rank]
    rw [e, Nat.sub_zero]
    rfl
  | image im b => rfl

theorem leaf_first (M : Metrics) {c : Leaf} (hc : FreshLeaf c) {x y w h : Rat} {o : CellOut Leaf LeafPart B C} (ho : leafExec M c x y w h = .ok o) :
    leafLeft M o.next ≤ leafLeft M c := by
  rw [leafItems_eq M hc]
  have hle : ∀ cfg rs, leafLeft M (.par cfg rs) ≤ leafItems (.par cfg []) := by
    intro cfg rs
    rw [← leafItems_eq M (c := .par cfg []) rfl]
    simp only [leafLeft]
    have e : rank cfg.content (textRuns M cfg [] TPos.init).1.lastPart (textRuns M cfg [] TPos.init).1.lastWord = 0 := by
      simp [textRuns, TPos.init, rank]
    rw [e]
    omega
  rcases leafExec_cases ho with ⟨cfg, rs, rfl, hf, rfl⟩ | ⟨cfg, rs, rfl, hf, rfl⟩ | ⟨im, rfl, rfl⟩ | ⟨im, rfl, -, hh, rfl⟩ | ⟨im, rfl, -, hh, rfl⟩
  · exact hle cfg rs
  · exact hle cfg _
  · exact le_refl _
  · exact le_refl _
  · exact le_refl _

theorem table_ends (M : Metrics) {T : TConf Leaf LeafPart B C} (hT : T.exec = leafExec M) {W H : Rat} (h : TableLow T W H) :
    TableEnds T LeafLow (leafLeft M) [(W, H)] := by
  obtain ⟨cfg, hbl, hpos, hnil⟩ := h.leaves.blank
  refine ⟨by rw [hT]; exact leaf_ends M, h.cols, ?_, ?_, ?_, ?_⟩
  · intro i j c hc
    obtain ⟨h1, x, h2, h3⟩ := h.cells i j c hc
    refine ⟨h1, x, h2, ?_, ?_⟩
    · intro q hq
      rw [List.mem_singleton] at hq
      subst hq
      exact h3
    · intro a b w hh o ho
      rw [hT] at ho
      exact leaf_first M (h.leaves.fresh i j c x hc h2) ho
  · intro i j q hq
    rw [List.mem_singleton] at hq
    subst hq
    exact h.blank i j
  · intro x y w hh o hfit ho
    cases hfin : o.finished with
    | true => rfl
    | false =>
      rw [hT] at ho
      have := (leaf_ends (B := B) (C := C) M).shrink _ _ _ _ _ _ hfit ho hfin
      rw [hbl, leafItems_eq M (c := .par cfg []) rfl] at this
      simp [leafItems, hnil] at this
  · intro x y w hh o ho
    rw [hT] at ho
    refine leaf_first M ?_ ho
    rw [hbl]
    exact rfl

/-- `leafExec` without errors -/
def leafTotal (M : Metrics) (c : Leaf) (x y w h : Rat) : Except PyErr (CellOut Leaf LeafPart B C) :=
  match leafExec M c x y w h with
  | .ok o => .ok o
  | .error _ => .ok (leafDone c)

theorem leafTotal_total (M : Metrics) (c : Leaf) (x y w h : Rat) : ∃ o, (leafTotal M c x y w h : Except PyErr (CellOut Leaf LeafPart B C)) = .ok o := by
  unfold leafTotal
  cases (leafExec M c x y w h : Except PyErr (CellOut Leaf LeafPart B C)) <;> exact ⟨_, rfl⟩

/-- images have a width -/
def LeafReal : Leaf → Rat → Prop
  | .par _ _, _ => True
  | .image im _, _ => im.width ≠ 0

theorem leafTotal_same (M : Metrics) : SameWhere LeafReal (leafExec M : Leaf → Rat → Rat → Rat → Rat → Except PyErr (CellOut Leaf LeafPart B C)) (leafTotal M) where
  same := by
    intro c x y w h hk
    unfold leafTotal
    cases ho : (leafExec M c x y w h : Except PyErr (CellOut Leaf LeafPart B C)) with
    | ok o => rfl
    | error e =>
      cases c with
      | par cfg rs => cases ho
      | image im b =>
        cases b with
        | true => cases ho
        | false =>
          simp only [leafExec, imageExec, scaled] at ho
          rw [if_neg hk] at ho
          simp only at ho
          split at ho <;> cases ho
  next := by
    intro c x y w h o w' ho hk
    cases he : (leafExec M c x y w h : Except PyErr (CellOut Leaf LeafPart B C)) with
    | error e =>
      simp only [leafTotal, he, Except.ok.injEq] at ho
      subst ho
      exact hk
    | ok o' =>
    simp only [leafTotal, he, Except.ok.injEq] at ho
    subst ho
    rcases leafExec_cases he with ⟨cfg, rs, rfl, -, rfl⟩ | ⟨cfg, rs, rfl, -, rfl⟩ | ⟨im, rfl, rfl⟩ | ⟨im, rfl, -, -, rfl⟩ | ⟨im, rfl, -, -, rfl⟩ <;> exact hk

theorem low_real {c : Leaf} {w h w' : Rat} (hl : LeafLow c w h) : LeafReal c w' := by
  cases c with
  | par => trivial
  | image im b => exact hl.1

theorem rowsFrom_items (M : Metrics) {T : TConf Leaf LeafPart B C} {W H : Rat} (h : TableLow T W H) : rowsFrom T (leafLeft M) 0 = tableItems T.content := by
  unfold rowsFrom tableItems
  rw [List.drop_zero]
  congr 1
  refine List.map_congr_left fun row hrow => ?_
  unfold rowSize
  congr 2
  refine List.map_congr_left fun el hel => ?_
  obtain ⟨cfg, hbl, -, hnil⟩ := h.leaves.blank
  cases el with
  | none =>
    simp only [elSize]
    rw [hbl, leafItems_eq M (c := .par cfg []) rfl]
    simp [leafItems, hnil]
  | some c =>
    obtain ⟨i, hi⟩ := List.mem_iff_getElem?.1 hrow
    obtain ⟨j, hj⟩ := List.mem_iff_getElem?.1 hel
    have hc : cellAt T.content i j = some c := by unfold cellAt; rw [hi, Option.bind_some, hj]; rfl
    obtain ⟨-, x, hx, -⟩ := h.cells i j c hc
    obtain ⟨a, b, c', d⟩ := c
    simp only at hx
    subst hx
    simp only [elSize]
    rw [leafItems_eq M (h.leaves.fresh i j _ x hc rfl)]

/-- C63 (partial): a table of paragraphs and images that fit into a page comes to an end without errors, whatever is left of the first page; it takes at most as many
further pages as it has rows, cells, words and items. Partial because of row spans, and of what does not fit into a page (`C63_high_image_false`) -/
theorem C63_ends_partial [DecidableEq B] (M : Metrics) (T : TConf Leaf LeafPart B C) (hT : T.exec = leafExec M) (W H : Rat) (hlow : TableLow T W H)
    (x0 y0 w0 h0 : Rat) (first : Rat × Rat × Rat × Rat) (pages : List (Rat × Rat × Rat × Rat)) (hp : ∀ r ∈ pages, r.2.2 = (W, H))
    (hn : tableItems T.content < pages.length) :
    ∃ ps s, (TS.new x0 y0 w0 h0).pages T (first :: pages) = .ok (ps, s) ∧ s.finished = true := by
  have hsame := leafTotal_same (B := B) (C := C) M
  rw [← hT] at hsame
  have hreal : ∀ i j c, cellAt T.content i j = some c → ∀ x, c.content = some x → ∀ w, LeafReal x w := by
    intro i j c hc x hx w
    obtain ⟨-, x', hx', hl⟩ := hlow.cells i j c hc
    rw [hx] at hx'
    cases hx'
    exact low_real hl
  have hc := pages_cong (Ws := (first :: pages).map (·.2.2.1)) hsame (fun j W _ i => low_real (hlow.blank i j))
    (fun i j c hc x hx W _ i' => hreal i j c hc x hx _) (first :: pages) (fun r hr => List.mem_map_of_mem hr) (s := TS.new x0 y0 w0 h0) (LateFine.new x0 y0 w0 h0)
  obtain ⟨ps, s, hr⟩ := pages_total (T := { T with exec := leafTotal M }) (leafTotal_total M) hlow.square (first :: pages) (TS.new x0 y0 w0 h0)
  rw [hc] at hr
  refine ⟨ps, s, hr, ?_⟩
  have hE := table_ends M hT hlow
  obtain ⟨x, y, w, h⟩ := first
  have hnew : (TS.new x0 y0 w0 h0 : TS Leaf LeafPart B C).finished = false := rfl
  simp only [TS.pages, hnew, Bool.false_eq_true, if_false] at hr
  cases h1 : (TS.new x0 y0 w0 h0).run T x y w h with
  | error e => rw [h1] at hr; cases hr
  | ok s1 =>
    rw [h1] at hr
    simp only at hr
    cases h2 : s1.pages T pages with
    | error e => rw [h2] at hr; cases hr
    | ok q =>
      obtain ⟨ps2, s2⟩ := q
      rw [h2] at hr
      cases hr
      obtain ⟨a1, a2⟩ := tableRun_ends hE (s := TS.new x0 y0 w0 h0) ⟨fun c d hcd => (by cases hcd), fun h => absurd rfl h⟩ (fun h => absurd rfl h) h1
      have hm : leftSize T (leafLeft M) (TS.new x0 y0 w0 h0) = tableItems T.content + 1 := by
        rw [leftSize_of_nil rfl]
        show rowsFrom T (leafLeft M) 0 + 1 = _
        rw [rowsFrom_items M hlow]
      rw [hm] at a2
      rcases a2 with a2 | a2
      · cases pages with
        | nil => cases h2; exact a2
        | cons r l =>
          obtain ⟨x', y', w', hh'⟩ := r
          simp only [TS.pages, a2, if_true] at h2
          cases h2
          exact a2
      · exact pages_ends hE pages (fun r hr => by rw [show (r.2.2.1, r.2.2.2) = r.2.2 from rfl, hp r hr]; simp) a1 (by omega) h2

/-- C63 (partial): and then the words and images of all cells have been shown -/
theorem C63_all_shown_partial [DecidableEq B] (M : Metrics) (T : TConf Leaf LeafPart B C) (hT : T.exec = leafExec M) (W H : Rat) (hlow : TableLow T W H)
    (hok : SpansOk T.content) (hst : CellStylesOk T)
    (x0 y0 w0 h0 : Rat) (first : Rat × Rat × Rat × Rat) (pages : List (Rat × Rat × Rat × Rat)) (hp : ∀ r ∈ pages, r.2.2 = (W, H))
    (hbox : BoxesOk T [first.2.2.1, W]) (hn : tableItems T.content < pages.length) :
    ∃ ps s, (TS.new x0 y0 w0 h0).pages T (first :: pages) = .ok (ps, s) ∧
    ∃ t : List ((Nat × Nat) × LAtom), t.map Prod.snd = ps.flatMap leafPartAtoms ∧ ∀ i j, labelled t i j = cellAtoms leafAtoms T.content i j := by
  obtain ⟨ps, s, hr, hf⟩ := C63_ends_partial M T hT W H hlow x0 y0 w0 h0 first pages hp hn
  refine ⟨ps, s, hr, ?_⟩
  obtain ⟨n, -, hruns, -⟩ := pages_runs _ hr
  obtain ⟨t, t1, -, t2⟩ := C62_words_partial M T hT hlow.leaves hok hst hlow.cols (fun j c hc => (hlow.cells 0 j c hc).1) x0 y0 w0 h0 _
    (fun i j c x hc hx W' hW' i' => hbox i j c x hc hx W' (by
      obtain ⟨r, hr, rfl⟩ := List.mem_map.1 hW'
      rcases List.mem_cons.1 (List.mem_of_mem_take hr) with rfl | hr
      · simp
      · rw [hp r hr]; simp) i') ps s hruns
  exact ⟨t, t1, t2 hf⟩

/-! ### contents that do not fit -/

section Stuck
variable {σ P : Type} [DecidableEq B]

/-- what is known of a table of one cell whose content never ends -/
structure StuckInv (T : TConf σ P B C) (Z : σ → Rat → Rat → Prop) (W Hmax : Rat) (s : TS σ P B C) : Prop where
  index : s.index = 0
  fin : s.finished = false
  cell : s.delayed = [] ∨ ∃ d, dget 0 s.delayed = some d ∧ LateEnds T Z [(W, Hmax)] 0 0 d

theorem stuck_row {T : TConf σ P B C} {Z : σ → Rat → Rat → Prop} {W Hmax : Rat}
    (hZ : ∀ c x y w h h' o, Z c w h → h' ≤ h → T.exec c x y w h' = .ok o → o.finished = false ∧ Z o.next w h)
    {s s' : TS σ P B C} {el : RowEl σ C} {dl : Bool} {act : RowAct} (hr : s.rowspan = []) (hw : s.width = W) (hh : s.height - s.currentHeight ≤ Hmax) (hi : s.index = 0)
    (he : LateEnds T Z [(W, Hmax)] 0 0 (T.element 0 el)) (h : s.addRow T [el] dl = .ok (act, s')) :
    act ≠ .continue ∧ s'.index = 0 ∧ s'.finished = s.finished ∧ ∃ d, dget 0 s'.delayed = some d ∧ LateEnds T Z [(W, Hmax)] 0 0 d := by
  obtain ⟨-, s0, s1, e1, e2, -, -, e4', -, -, e7, -, e8, g1, f1, f1', -, -, f4⟩ := addRow_unfold_width h
  simp only [TS.addCells] at g1
  cases h1 : s0.addCell T 0 el dl with
  | error e => rw [h1] at g1; cases g1
  | ok s2 =>
    rw [h1] at g1
    cases g1
    have hi0 : s0.index = 0 := by rw [e1.index, hi]
    obtain ⟨a1, a2, -, a4⟩ := addCell_ends (T := T) (fit := Z) (Pg := [(W, Hmax)]) (by rw [e1.rowspan, hr]) (by rw [hi0]; exact he) h1
    rcases a4 with ⟨a4, -⟩ | ⟨-, -, x, a, b, o, hx, hex, hd⟩
    · omega
    · rw [hi0] at hx hd hex
      obtain ⟨x', hx', hz⟩ := he.content
      rw [hx] at hx'
      cases hx'
      rw [e8, hw] at hex
      obtain ⟨k1, k2⟩ := hZ x a b _ (boxHeight T Hmax 0 0 (T.element 0 el).style) _ o (hz (W, Hmax) (by simp)) (by
        unfold boxHeight
        rw [e7]
        linarith) hex
      rw [k1] at hd
      simp only [Bool.false_eq_true, if_false] at hd
      have hd' : dget 0 s'.delayed = some { T.element 0 el with content := some o.next } := by rw [f1.delayed]; exact hd
      refine ⟨?_, by rw [f1.index, a2.index, hi0], by rw [f1', a2.finished, e4'], _, hd', he.rows, he.row, o.next, rfl, fun q hq => by rw [List.mem_singleton] at hq; subst hq; exact k2⟩
      rintro rfl
      obtain ⟨q, hq⟩ := canGoOn_pending (((f4 (by simp)).1).1 rfl) 0 _ hd'
      rw [f1.rowspan, a1] at hq
      cases hq

theorem stuck_run {T : TConf σ P B C} {Z : σ → Rat → Rat → Prop} {W Hmax : Rat} {c0 : σ} {cols : Nat} {st : CellStyle C} (hcont : T.content = [[some ⟨some c0, cols, 0, st⟩]]) (hcols : T.cols = 1)
    (h0 : Z c0 (boxWidth T W 0 0 cols st) (boxHeight T Hmax 0 0 st)) (hZ : ∀ c x y w h h' o, Z c w h → h' ≤ h → T.exec c x y w h' = .ok o → o.finished = false ∧ Z o.next w h)
    {s s' : TS σ P B C} (hi : StuckInv T Z W Hmax s) {x y w h : Rat} (hw : w = W) (hh : h ≤ Hmax) (hr : s.run T x y w h = .ok s') : StuckInv T Z W Hmax s' := by
  have hclose : ∀ s1 : TS σ P B C, s1.index = 0 → s1.finished = false → (∃ d, dget 0 s1.delayed = some d ∧ LateEnds T Z [(W, Hmax)] 0 0 d) →
      StuckInv T Z W Hmax (s1.close T) := by
    intro s1 h1 h2 h3
    obtain ⟨b1, -, b3⟩ := close_same T s1
    refine ⟨b1.index.trans h1, ?_, Or.inr (by rw [b1.delayed]; exact h3)⟩
    rw [b3, h1, h2, hcont]
    rfl
  unfold TS.run TS.addLate at hr
  rcases hi.cell with hd | ⟨d, hd, hz⟩
  · rw [if_pos (by show s.delayed.isEmpty = true; simp [hd])] at hr
    have hi0 : (s.clear T x y w h).index = 0 := hi.index
    simp only [hi0, hcont, List.drop_zero, TS.addRows, List.map_cons, List.map_nil] at hr
    cases h1 : (s.clear T x y w h).addRow T [.cell (some ⟨some c0, cols, 0, st⟩)] false with
    | error e => rw [h1] at hr; cases hr
    | ok q =>
      obtain ⟨act, s1⟩ := q
      rw [h1] at hr
      obtain ⟨a1, a2, a3, a4⟩ := stuck_row (W := W) (Hmax := Hmax) hZ rfl hw (by show h - 0 ≤ Hmax; linarith) hi0 ⟨rfl, rfl, c0, rfl, fun q hq => by rw [List.mem_singleton] at hq; subst hq; exact h0⟩ h1
      have a3' : s1.finished = false := a3.trans hi.fin
      cases act with
      | «continue» => exact absurd rfl a1
      | cancel => cases hr; exact ⟨a2, a3', Or.inr a4⟩
      | interrupt => cases hr; exact hclose s1 a2 a3' a4
  · rw [if_neg (by
      intro hc
      have : s.delayed = [] := by simpa [TS.clear] using hc
      rw [this] at hd
      cases hd)] at hr
    have hl : ((List.range T.cols).map fun i => RowEl.late (dget i (s.clear T x y w h).delayed)) = [.late (some d)] := by
      rw [hcols]
      show [RowEl.late (dget 0 s.delayed)] = _
      rw [hd]
    rw [hl] at hr
    cases h1 : (s.clear T x y w h).addRow T [.late (some d)] true with
    | error e => rw [h1] at hr; cases hr
    | ok q =>
      obtain ⟨act, s1⟩ := q
      rw [h1] at hr
      have he : T.element 0 (.late (some d)) = d := by
        obtain ⟨x, hx, -⟩ := hz.content
        simp [TConf.element, hx]
      obtain ⟨a1, a2, a3, a4⟩ := stuck_row (W := W) (Hmax := Hmax) hZ rfl hw (by show h - 0 ≤ Hmax; linarith) (show (s.clear T x y w h).index = 0 from hi.index) (by rw [he]; exact hz) h1
      have a3' : s1.finished = false := a3.trans hi.fin
      cases act with
      | «continue» => exact absurd rfl a1
      | cancel => cases hr; exact hclose s1 a2 a3' a4
      | interrupt => cases hr; exact hclose s1 a2 a3' a4

theorem stuck_pages {T : TConf σ P B C} {Z : σ → Rat → Rat → Prop} {W Hmax : Rat} {c0 : σ} {cols : Nat} {st : CellStyle C} (hcont : T.content = [[some ⟨some c0, cols, 0, st⟩]]) (hcols : T.cols = 1)
    (h0 : Z c0 (boxWidth T W 0 0 cols st) (boxHeight T Hmax 0 0 st)) (hZ : ∀ c x y w h h' o, Z c w h → h' ≤ h → T.exec c x y w h' = .ok o → o.finished = false ∧ Z o.next w h)
    (l : List (Rat × Rat × Rat × Rat)) (hl : ∀ r ∈ l, r.2.2.1 = W ∧ r.2.2.2 ≤ Hmax) {s s' : TS σ P B C} {ps : List P} (hi : StuckInv T Z W Hmax s) (h : s.pages T l = .ok (ps, s')) :
    s'.finished = false := by
  induction l generalizing s ps with
  | nil => cases h; exact hi.fin
  | cons r l ih =>
    obtain ⟨x, y, w, hh⟩ := r
    simp only [TS.pages, hi.fin, Bool.false_eq_true, if_false] at h
    cases h1 : s.run T x y w hh with
    | error e => rw [h1] at h; cases h
    | ok s1 =>
      rw [h1] at h
      simp only at h
      cases h2 : s1.pages T l with
      | error e => rw [h2] at h; cases h
      | ok q =>
        rw [h2] at h
        cases h
        exact ih (fun r hr => hl r (by simp [hr])) (stuck_run hcont hcols h0 hZ hi (hl (x, y, w, hh) (by simp)).1 (hl (x, y, w, hh) (by simp)).2 h1) h2

end Stuck

section Example
private def ex63Look : TLook := ⟨⟨c!"Helvetica", c!"n", c!"F1", 10, ⟨none, false⟩, 0⟩, false, ⟨none, false⟩, none⟩
private def ex63Cfg (t : Str) : TCfg := ⟨[.text (splitWords t) ex63Look none], 0, c!"l", 1, none⟩

/-- the pages of a loop, 100 points wide -/
def leafPages (content : List (List (Option (Cell Leaf Unit)))) (widths : List Rat) (heights : List Rat) : Except PyErr (List Str × Bool) :=
  ((TS.new 0 0 100 100).pages (leafTable content widths) (heights.map fun h => (0, h, 100, h))).map fun r => (r.1.flatMap partWords, r.2.finished)

/-- the loop stops when the table is finished: the last page is not used -/
example : leafPages [[leafCell (.par (ex63Cfg c!"one two three four") []), leafCell (.image ⟨c!"im", 20, 10, []⟩ false)], [none, leafCell (.par (ex63Cfg c!"five") [])]]
    [1/2, 1/2] [20, 40, 60, 60] = .ok ([c!"one", c!"two", c!"three", c!"four", c!"I", c!"five"], true) := by
  decide +kernel

/-- pages of 100 by 30 points are enough for this table, however little is left of the first page -/
example (first : Rat × Rat × Rat × Rat) (pages : List (Rat × Rat × Rat × Rat)) (hp : ∀ r ∈ pages, r.2.2 = (100, 30)) (hn : 16 < pages.length) :
    ∃ ps s, (TS.new 0 0 100 100).pages (leafTable [[leafCell (.par (ex63Cfg c!"one two three four") []), leafCell (.image ⟨c!"im", 20, 10, []⟩ false)]] [1/2, 1/2])
      (first :: pages) = .ok (ps, s) ∧ s.finished = true := by
  have hcell : ∀ i j c, cellAt (leafTable [[leafCell (.par (ex63Cfg c!"one two three four") []), leafCell (.image ⟨c!"im", 20, 10, []⟩ false)]] [1/2, 1/2]).content i j = some c →
      (i = 0 ∧ j = 0 ∧ c = ⟨some (.par (ex63Cfg c!"one two three four") []), 0, 0, ⟨1, 1, 1, 1, none⟩⟩) ∨
      (i = 0 ∧ j = 1 ∧ c = ⟨some (.image ⟨c!"im", 20, 10, []⟩ false), 0, 0, ⟨1, 1, 1, 1, none⟩⟩) := by
    intro i j c hc
    rcases i with _ | i
    · rcases j with _ | _ | j
      · left; exact ⟨rfl, rfl, by simpa [cellAt, leafTable, leafCell] using hc.symm⟩
      · right; exact ⟨rfl, rfl, by simpa [cellAt, leafTable, leafCell] using hc.symm⟩
      · simp [cellAt, leafTable] at hc
    · simp [cellAt, leafTable] at hc
  refine C63_ends_partial _ _ rfl 100 30 ⟨⟨?_, _, rfl, by norm_num, rfl⟩, by decide, by decide, ?_, ?_⟩ 0 0 100 100 first pages hp (lt_of_le_of_lt (by decide) hn)
  · intro i j c x hc hx
    rcases hcell i j c hc with ⟨-, -, rfl⟩ | ⟨-, -, rfl⟩ <;> · cases hx; rfl
  · intro i j c hc
    rcases hcell i j c hc with ⟨rfl, rfl, rfl⟩ | ⟨rfl, rfl, rfl⟩
    · refine ⟨rfl, _, rfl, 10, 0, by norm_num, by norm_num, ?_, by norm_num [boxHeight, leafTable, ex63Cfg]⟩
      intro x hx
      have : x = ex63Look := by simpa [ex63Cfg, contentLooks] using hx
      subst this
      norm_num [ex63Look]
    · exact ⟨rfl, _, rfl, by decide, by norm_num [boxHeight, boxWidth, leafTable, cellWidth]⟩
  · intro i j
    exact ⟨0, 0, le_refl _, le_refl _, fun x hx => by simp [contentLooks] at hx, by norm_num [boxHeight, leafTable]⟩

/-- C63 fails for an image that is higher than the pages (a square image in pages 100 points wide and at most 50 high): `PDF.table` adds pages for ever -/
theorem C63_high_image_false (pages : List (Rat × Rat × Rat × Rat)) (hp : ∀ r ∈ pages, r.2.2.1 = 100 ∧ r.2.2.2 ≤ 50) :
    ∃ ps s, (TS.new 0 0 100 50).pages (leafTable [[leafCell (.image ⟨c!"im", 10, 10, []⟩ false)]] [1]) pages = .ok (ps, s) ∧ s.finished = false := by
  have hsame := leafTotal_same (B := Unit) (C := Unit) fun _ _ _ => 1 / 2
  have hc := pages_cong (T := leafTable [[leafCell (.image ⟨c!"im", 10, 10, []⟩ false)]] [1]) (Ws := pages.map (·.2.2.1)) hsame (fun j W _ i => trivial)
    (fun i j c hc x hx W _ i' => by
      have : c = ⟨some (.image ⟨c!"im", 10, 10, []⟩ false), 0, 0, ⟨1, 1, 1, 1, none⟩⟩ := by
        rcases i with _ | i
        · rcases j with _ | j
          · simpa [cellAt, leafTable, leafCell] using hc.symm
          · simp [cellAt, leafTable] at hc
        · simp [cellAt, leafTable] at hc
      subst this
      cases hx
      show (10 : Nat) ≠ 0
      decide) pages (fun r hr => List.mem_map_of_mem hr) (s := TS.new 0 0 100 50) (LateFine.new 0 0 100 50)
  obtain ⟨ps, s, hr⟩ := pages_total (T := { leafTable [[leafCell (.image ⟨c!"im", 10, 10, []⟩ false)]] [1] with exec := leafTotal fun _ _ _ => 1 / 2 })
    (leafTotal_total _) (by decide) pages (TS.new 0 0 100 50)
  rw [hc] at hr
  refine ⟨ps, s, hr, stuck_pages (Z := fun c w h => c = .image ⟨c!"im", 10, 10, []⟩ false ∧ h ≤ w) (W := 100) (Hmax := 50) (c0 := .image ⟨c!"im", 10, 10, []⟩ false) rfl rfl
    ⟨rfl, by norm_num [boxWidth, boxHeight, leafTable, cellWidth]⟩ ?_ pages hp ⟨rfl, rfl, Or.inl rfl⟩ hr⟩
  rintro c x y w h h' o ⟨rfl, hz⟩ hh ho
  have ho' : leafExec (fun _ _ _ => 1 / 2) (.image ⟨c!"im", 10, 10, []⟩ false) x y w h' = .ok o := ho
  simp only [leafExec, imageExec, scaled] at ho'
  rw [if_neg (by decide)] at ho'
  simp only at ho'
  rw [if_neg (by
    rw [mul_div_assoc, div_self (by norm_num), mul_one]
    linarith)] at ho'
  cases ho'
  exact ⟨rfl, rfl, hz⟩

end Example

end Verif
