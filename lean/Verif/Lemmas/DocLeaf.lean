import Verif.Lemmas.FileParts
import Verif.Lemmas.TableParts
import Verif.Props.C62_CellText
/-! The paragraphs and images in the tables of a document. -/
namespace Verif
open Spec

/-- a content without what only its streams need -/
def leafOf : DocLeaf → Leaf
  | .par a rects _ => .par a.cfg rects
  | .image im shown => .image im shown

/-- a part without its streams -/
def DocPart.leaf : DocPart → LeafPart
  | .par x y width height _ _ _ _ cfg lines => .par x y width height cfg lines
  | .image im x y width height => .image im x y width height

/-- the result of a run of a content, without streams -/
def docOut (o : CellOut DocLeaf DocPart LineLook (PDFColor Rat)) : CellOut Leaf LeafPart LineLook (PDFColor Rat) :=
  ⟨o.parts.map DocPart.leaf, o.lines, o.fills, o.height, o.finished, leafOf o.next⟩

theorem docExec_leaf {T : TextEnv} {c : DocLeaf} {x y w h : Rat} {o : CellOut DocLeaf DocPart LineLook (PDFColor Rat)} (ho : docExec T c x y w h = .ok o) :
    leafExec T.metrics (leafOf c) x y w h = .ok (docOut o) := by
  cases c with
  | par a rects correct =>
    simp only [docExec, docParExec] at ho
    simp only [leafOf, leafExec, parExec]
    split at ho
    · rename_i hf
      cases ho
      rw [if_pos hf]
      rfl
    · rename_i hf
      rw [if_neg hf]
      split at ho
      · cases ho
      · cases ho
        rfl
  | image im shown =>
    cases shown with
    | true => cases ho; rfl
    | false =>
      simp only [docExec, docImageExec] at ho
      simp only [leafOf, leafExec, imageExec]
      cases hs : scaled w im.height im.width with
      | error e => rw [hs] at ho; cases ho
      | ok ih =>
        rw [hs] at ho
        simp only at ho ⊢
        split at ho
        · rename_i hh
          cases ho
          rw [if_pos hh]
          rfl
        · rename_i hh
          cases ho
          rw [if_neg hh]
          rfl

/-- contents that can be read in the file -/
def LeafRead (T : TextEnv) (refOf : Str → Str → Str) (L : PImg → Prop) : DocLeaf → Prop
  | .par a _ _ => Readable T.fmt refOf a.cfg
  | .image im _ => L im

/-- contents that can be shown in a box of some width and read in the file -/
def DocFine (T : TextEnv) (refOf : Str → Str → Str) (L : PImg → Prop) (c : DocLeaf) (w : Rat) : Prop := LeafOk (leafOf c) w ∧ LeafRead T refOf L c

open Classical in
/-- `docExec` for such contents and boxes -/
noncomputable def docSafe (T : TextEnv) (refOf : Str → Str → Str) (L : PImg → Prop) (c : DocLeaf) (x y w h : Rat) :
    Except PyErr (CellOut DocLeaf DocPart LineLook (PDFColor Rat)) :=
  if DocFine T refOf L c w then docExec T c x y w h else .error .exception

section
variable {T : TextEnv} {refOf : Str → Str → Str} {L : PImg → Prop}

theorem docSafe_ok {c : DocLeaf} {x y w h : Rat} {o : CellOut DocLeaf DocPart LineLook (PDFColor Rat)} (ho : docSafe T refOf L c x y w h = .ok o) :
    DocFine T refOf L c w ∧ docExec T c x y w h = .ok o := by
  unfold docSafe at ho
  split at ho
  · exact ⟨by assumption, ho⟩
  · cases ho

theorem docSafe_leaf {c : DocLeaf} {x y w h : Rat} {o : CellOut DocLeaf DocPart LineLook (PDFColor Rat)} (ho : docSafe T refOf L c x y w h = .ok o) :
    leafSafe T.metrics (leafOf c) x y w h = .ok (docOut o) := by
  obtain ⟨h1, h2⟩ := docSafe_ok ho
  unfold leafSafe
  rw [if_pos h1.1]
  exact docExec_leaf h2

theorem docSafe_honest : Honest (docSafe T refOf L) (fun p => leafPartAtoms p.leaf) (fun c => leafRest T.metrics (leafOf c)) where
  step := by
    intro c x y w h o ho
    have := (leafSafe_honest (B := LineLook) (C := PDFColor Rat) T.metrics).step _ _ _ _ _ _ (docSafe_leaf ho)
    simpa [docOut, List.flatMap_map] using this
  done := by
    intro c x y w h o ho hf
    exact (leafSafe_honest (B := LineLook) (C := PDFColor Rat) T.metrics).done _ _ _ _ _ _ (docSafe_leaf ho) hf
  zero := by
    intro c x y w h o ho hz
    have := (leafSafe_honest (B := LineLook) (C := PDFColor Rat) T.metrics).zero _ _ _ _ _ _ (docSafe_leaf ho) hz
    simpa [docOut, List.flatMap_map] using this

theorem docExec_next {c : DocLeaf} {x y w h : Rat} {o : CellOut DocLeaf DocPart LineLook (PDFColor Rat)} (ho : docExec T c x y w h = .ok o)
    (hk : LeafRead T refOf L c) : LeafRead T refOf L o.next := by
  cases c with
  | par a rects correct =>
    simp only [docExec, docParExec] at ho
    split at ho
    · cases ho; exact hk
    · split at ho
      · cases ho
      · cases ho; exact hk
  | image im shown =>
    cases shown with
    | true => cases ho; exact hk
    | false =>
      simp only [docExec, docImageExec] at ho
      split at ho
      · cases ho
      · split at ho <;> · cases ho; exact hk

theorem doc_same : SameWhere (DocFine T refOf L) (docExec T) (docSafe T refOf L) where
  same := by
    intro c x y w h hk
    unfold docSafe
    rw [if_pos hk]
  next := by
    intro c x y w h o w' ho hk
    have h2 := (docSafe_ok ho).2
    exact ⟨leafExec_next (docExec_leaf h2) hk.1, docExec_next h2 hk.2⟩

theorem docSafe_parts {c : DocLeaf} {x y w h : Rat} {o : CellOut DocLeaf DocPart LineLook (PDFColor Rat)} (ho : docSafe T refOf L c x y w h = .ok o) :
    ∀ a ∈ o.parts, PartOk T refOf L a := by
  obtain ⟨⟨-, hk⟩, ho⟩ := docSafe_ok ho
  cases c with
  | par a rects correct =>
    simp only [docExec, docParExec] at ho
    split at ho
    · cases ho; intro a ha; cases ha
    · rename_i hf
      split at ho
      · cases ho
      · rename_i o' ho'
        cases ho
        intro q hq
        simp only [List.mem_singleton] at hq
        subst hq
        exact ⟨a.enc, h, _, correct, o', hk, ⟨rects, rfl, by simpa using hf⟩, ho', rfl, rfl, rfl, rfl, rfl⟩
  | image im shown =>
    cases shown with
    | true => cases ho; intro a ha; cases ha
    | false =>
      simp only [docExec, docImageExec] at ho
      split at ho
      · cases ho
      · split at ho
        · cases ho
          intro q hq
          simp only [List.mem_singleton] at hq
          subst hq
          exact hk
        · cases ho; intro a ha; cases ha

end

/-- a table whose contents were not run yet and can be shown in their boxes when the table has one of the widths `Ws` -/
structure Spec.DocTableOk (T : TextEnv) (refOf : Str → Str → Str) (Ws : List Rat) (t : DocTable) : Prop where
  exec : t.exec = docExec T
  spans : SpansOk t.content
  styles : CellStylesOk t
  cols : t.cols ≠ 0
  first : ∀ j c, cellAt t.content 0 j = some c → c.rows = 0
  fresh : ∀ i j c x, cellAt t.content i j = some c → c.content = some x → FreshLeaf (leafOf x)
  boxes : ∀ i j c x, cellAt t.content i j = some c → c.content = some x → ∀ W ∈ Ws, ∀ i' : Nat, LeafOk (leafOf x) (boxWidth t W i' j c.cols c.style)
  texts : ∀ i j c a rects correct, cellAt t.content i j = some c → c.content = some (.par a rects correct) → Readable T.fmt refOf a.cfg
  blank : ∃ a correct, t.blank = .par a [] correct ∧ 0 < a.cfg.lineHeight ∧ a.cfg.content = [] ∧ Readable T.fmt refOf a.cfg

section
variable {T : TextEnv} {refOf : Str → Str → Str} {L : PImg → Prop} {Ws : List Rat} {t : DocTable}

theorem Spec.DocTableOk.safe (h : DocTableOk T refOf Ws t) (hL : ∀ i j c im b, cellAt t.content i j = some c → c.content = some (.image im b) → L im)
    {s : TS DocLeaf DocPart LineLook (PDFColor Rat)} {x y w ht : Rat} (hW : w ∈ Ws) (hs : LateFine t (DocFine T refOf L) Ws s) :
    s.run { t with exec := docSafe T refOf L } x y w ht = s.run t x y w ht ∧ ∀ s', s.run t x y w ht = .ok s' → LateFine t (DocFine T refOf L) Ws s' := by
  have hb : ∀ j, ∀ W ∈ Ws, ∀ i : Nat, DocFine T refOf L t.blank (boxWidth t W i j 0 t.style) := by
    obtain ⟨a, correct, e, h1, -, h3⟩ := h.blank
    intro j W _ i
    rw [e]
    exact ⟨h1, h3⟩
  refine run_cong (T := t) (by rw [h.exec]; exact doc_same) hb ?_ hW hs
  intro i j c hc x hx W hW i'
  refine ⟨h.boxes i j c x hc hx W hW i', ?_⟩
  cases x with
  | par a rects correct => exact h.texts i j c a rects correct hc hx
  | image im b => exact hL i j c im b hc hx

/-- what a table leaves can be shown -/
theorem table_safe (h : DocTableOk T refOf Ws t) (hL : ∀ i j c im b, cellAt t.content i j = some c → c.content = some (.image im b) → L im) :
    FlowSafe T refOf L (· ∈ Ws) (LateFine t (DocFine T refOf L) Ws) (tableFlow t) := by
  intro s x y w ht o hW hs ho
  obtain ⟨e, hl⟩ := h.safe hL (x := x) (y := y) (ht := ht) hW hs
  unfold tableFlow at ho
  split at ho
  · cases ho
  · rename_i s' hr
    split at ho
    · cases ho
    · cases ho
      refine ⟨?_, fun _ => hl _ hr⟩
      rw [← e] at hr
      exact run_parts (T := { t with exec := docSafe T refOf L }) (fun _ _ _ _ _ _ h => docSafe_parts h) hr

theorem flow_runs : ∀ (rects : List (Rat × Rat × Rat × Rat)) (outs : List (FlowOut (TS DocLeaf DocPart LineLook (PDFColor Rat)))) (s : TS DocLeaf DocPart LineLook (PDFColor Rat)),
    FlowChain (tableFlow t) s rects outs → ∃ s', s.runs t rects = .ok (outs.flatMap FlowOut.parts, s') ∧ ∀ o, outs.getLast? = some o → s'.finished = o.finished := by
  intro rects
  induction rects with
  | nil =>
    intro outs s h
    cases outs with
    | nil => exact ⟨s, rfl, by simp⟩
    | cons o outs => exact h.elim
  | cons r rects ih =>
    intro outs s h
    obtain ⟨x, y, w, ht⟩ := r
    cases outs with
    | nil => exact h.elim
    | cons o outs =>
      obtain ⟨h1, -, h2⟩ := h
      unfold tableFlow at h1
      split at h1
      · cases h1
      · rename_i s1 hr
        split at h1
        · cases h1
        · cases h1
          obtain ⟨s', e1, e2⟩ := ih outs s1 h2
          refine ⟨s', ?_, ?_⟩
          · simp only [TS.runs, hr, e1, List.flatMap_cons]
          · intro o ho
            cases outs with
            | nil =>
              simp only [List.getLast?_singleton, Option.some.injEq] at ho
              subst ho
              cases rects with
              | nil =>
                cases e1
                rfl
              | cons => exact h2.elim
            | cons o1 outs =>
              rw [List.getLast?_cons_cons] at ho
              exact e2 o ho

theorem docRest_fresh (h : DocTableOk T refOf Ws t) (i j : Nat) :
    cellAtoms (fun c => leafRest T.metrics (leafOf c)) t.content i j = cellAtoms (fun c => leafAtoms (leafOf c)) t.content i j := by
  unfold cellAtoms
  cases hc : cellAt t.content i j with
  | none => rfl
  | some c =>
    cases hx : c.content with
    | none => simp [hx, restOf]
    | some x => simp [hx, restOf, leafRest_fresh T.metrics (h.fresh i j c x hc hx)]

/-- the words and images of a table that was finished -/
theorem table_atoms (h : DocTableOk T refOf Ws t) (hL : ∀ i j c im b, cellAt t.content i j = some c → c.content = some (.image im b) → L im)
    {rects : List (Rat × Rat × Rat × Rat)} {outs : List (FlowOut (TS DocLeaf DocPart LineLook (PDFColor Rat)))} (x y w ht : Rat)
    (hch : FlowChain (tableFlow t) (TS.new x y w ht) rects outs) (hW : ∀ r ∈ rects, r.2.2.1 ∈ Ws) (hfin : ∃ o, outs.getLast? = some o ∧ o.finished = true) :
    ∃ u : List ((Nat × Nat) × LAtom), u.map Prod.snd = (outs.flatMap FlowOut.parts).flatMap (fun p => leafPartAtoms p.leaf) ∧
      (∀ i j, labelled u i j = cellAtoms (fun c => leafAtoms (leafOf c)) t.content i j) ∧
      ((∀ i j c, cellAt t.content i j = some c → c.rows = 0) → (u.map (·.1.1)).Pairwise (· ≤ ·)) := by
  obtain ⟨s', e1, e2⟩ := flow_runs rects outs _ hch
  obtain ⟨o, ho, hf⟩ := hfin
  have hb : ∀ j, ∀ W ∈ Ws, ∀ i : Nat, DocFine T refOf L t.blank (boxWidth t W i j 0 t.style) := by
    obtain ⟨a, correct, e, h1, -, h3⟩ := h.blank
    intro j W _ i
    rw [e]
    exact ⟨h1, h3⟩
  obtain ⟨e, -⟩ := runs_cong (T := t) (fine := DocFine T refOf L) (Ws := Ws) (by rw [h.exec]; exact doc_same) hb (by
    intro i j c hc x hx W hW i'
    refine ⟨h.boxes i j c x hc hx W hW i', ?_⟩
    cases x with
    | par a rects correct => exact h.texts i j c a rects correct hc hx
    | image im b => exact hL i j c im b hc hx) rects hW (LateFine.new x y w ht)
  rw [← e] at e1
  obtain ⟨u, a1, -, a3, a4⟩ := C33_cells_partial { t with exec := docSafe T refOf L } (fun p => leafPartAtoms p.leaf) (fun c => leafRest T.metrics (leafOf c)) docSafe_honest (by
    obtain ⟨a, correct, e, h1, h2, h3⟩ := h.blank
    show leafRest T.metrics (leafOf t.blank) = []
    rw [e]
    show leafRest T.metrics (.par a.cfg []) = []
    rw [leafRest_fresh T.metrics (c := .par a.cfg []) rfl]
    simp [leafAtoms, h2, wordsOf, wordState, wordStep]) h.spans ⟨h.styles.border, h.styles.style, h.styles.cells⟩ h.cols h.first x y w ht rects _ s' e1
  refine ⟨u, a1, ?_, fun hr => (a4 hr).1⟩
  intro i j
  rw [a3 (by rw [e2 o ho]; exact hf) i j]
  exact docRest_fresh h i j

end

/-! ### Words -/

theorem wordsOf_tokChars (l : List (WTok Piece)) : wordsOf (l.flatMap tokChars) = (wordsOf l).flatMap fun w => wordsOf (w.flatMap pieceChars) := by
  rw [wordsOf_chars, stateChars]
  simp only [List.flatMap_nil, List.append_nil]
  have : ∀ ws : List (List Piece), wordState (ws.flatMap fun ps => ps.flatMap pieceChars ++ [.sep]) = (ws.flatMap fun w => wordsOf (w.flatMap pieceChars), []) := by
    intro ws
    induction ws using List.reverseRecOn with
    | nil => rfl
    | append_singleton ws w ih =>
      rw [List.flatMap_append, List.flatMap_append, wordState_append, ih, List.flatMap_singleton, List.flatMap_singleton]
      have h1 := wordFold_shift (w.flatMap pieceChars ++ [.sep]) [] [] (ws.flatMap fun w => wordsOf (w.flatMap pieceChars))
      rw [List.append_nil] at h1
      rw [h1]
      have h2 : ((w.flatMap pieceChars ++ [WTok.sep]).foldl wordStep ([], [])).2 = [] := by
        rw [List.foldl_append]
        exact wordStep_sep_snd _
      rw [h2]
      rfl
  rw [this]

end Verif
