import Verif.Model.PdfFlow
import Verif.Spec.Footnotes
import Mathlib.Tactic.Linarith
import Mathlib.Tactic.SplitIfs
/-! A paragraph in a lower and in a higher rectangle: its lines and its ids. -/
namespace Verif
open Spec

/-- the lines only grow, those of the lower rectangle are the first ones, and as long as the lower rectangle has room nothing is different -/
structure Below (r : RunSt) (lo hi : RunSt × Bool) : Prop where
  grows : r.lines <+: hi.1.lines
  first : lo.1.lines <+: hi.1.lines
  same : lo.2 = true → hi = lo

theorem Below.of {r r' : RunSt} {lo hi : RunSt × Bool} (h : Below r lo hi) (e : r.lines = r'.lines) : Below r' lo hi := ⟨by rw [← e]; exact h.grows, h.first, h.same⟩

/-- a line is added if it has room, whose height is the same in every rectangle -/
theorem addCurrentLine_cases (cfg : TCfg) (b : Bool) (r : RunSt) :
    ∃ (k : Rat) (no yes : RunSt), (∀ h, addCurrentLine cfg h b r = if k > h then (no, false) else (yes, true)) ∧ no.lines = r.lines ∧ r.lines <+: yes.lines ∧
      no.pos.finished = r.pos.finished ∧ yes.pos.finished = r.pos.finished :=
  ⟨_, _, _, fun _ => rfl, rfl, List.prefix_append _ _, rfl, rfl⟩

theorem addCurrentLine_below (cfg : TCfg) {h h' : Rat} (hh : h' ≤ h) (b : Bool) (r : RunSt) : Below r (addCurrentLine cfg h' b r) (addCurrentLine cfg h b r) := by
  obtain ⟨k, no, yes, h1, h2, h3, -, -⟩ := addCurrentLine_cases cfg b r
  rw [h1, h1]
  by_cases hk : k > h
  · rw [if_pos hk, if_pos (show k > h' from lt_of_le_of_lt hh hk)]
    exact ⟨by rw [h2]; exact List.prefix_refl _, List.prefix_refl _, fun _ => rfl⟩
  · rw [if_neg hk]
    by_cases hk' : k > h'
    · rw [if_pos hk']
      exact ⟨h3, by rw [h2]; exact h3, by intro hf; cases hf⟩
    · rw [if_neg hk']
      exact ⟨h3, List.prefix_refl _, fun _ => rfl⟩

theorem wordLoop_below (M : Metrics) (cfg : TCfg) (width : Rat) {h h' : Rat} (hh : h' ≤ h) (i n : Nat) : ∀ (ws : List Str) (k : Nat) (r : RunSt),
    Below r (wordLoop M cfg width h' i n ws k r) (wordLoop M cfg width h i n ws k r) := by
  intro ws
  induction ws with
  | nil => intro k r; exact ⟨List.prefix_refl _, List.prefix_refl _, fun _ => rfl⟩
  | cons w ws ih =>
    intro k r
    unfold wordLoop
    split
    · exact (ih _ _).of rfl
    · rename_i l nl hw
      have hb := addCurrentLine_below cfg hh (decide (i + 1 = cfg.content.length) && decide (k + 1 = n)) { r with cur := l }
      simp only
      generalize addCurrentLine cfg h' (decide (i + 1 = cfg.content.length) && decide (k + 1 = n)) { r with cur := l } = lo at hb ⊢
      generalize addCurrentLine cfg h (decide (i + 1 = cfg.content.length) && decide (k + 1 = n)) { r with cur := l } = hi at hb ⊢
      obtain ⟨g1, g2, g3⟩ := hb
      by_cases hlo : lo.2 = true
      · cases g3 hlo
        rw [if_pos hlo, if_pos hlo]
        obtain ⟨t1, t2, t3⟩ := ih (k + 1) { lo.1 with cur := { nl with maxWidth := width - cfg.listIndent } }
        exact ⟨g1.trans t1, t2, t3⟩
      · rw [if_neg hlo]
        by_cases hhi : hi.2 = true
        · rw [if_pos hhi]
          obtain ⟨t1, t2, t3⟩ := ih (k + 1) { hi.1 with cur := { nl with maxWidth := width - cfg.listIndent } }
          exact ⟨g1.trans t1, g2.trans t1, by intro hf; cases hf⟩
        · rw [if_neg hhi]
          exact ⟨g1, g2, by intro hf; cases hf⟩
    · exact (ih _ _).of rfl
    · exact (ih _ _).of rfl

theorem addPart_below (M : Metrics) (cfg : TCfg) (width : Rat) {h h' : Rat} (hh : h' ≤ h) (i : Nat) (words : List Str) (look : TLook) (ids : Option (List Str)) (r : RunSt) :
    Below r (addPart M cfg width h' i words look ids r) (addPart M cfg width h i words look ids r) := by
  have hl : (setupList cfg { r with cur := r.cur.addLinePart look ids }).lines = r.lines := by
    unfold setupList
    split
    · rfl
    · split <;> rfl
  unfold addPart
  simp only
  generalize setupList cfg { r with cur := r.cur.addLinePart look ids } = r1 at hl ⊢
  obtain ⟨g1, g2, g3⟩ := wordLoop_below M cfg width hh i words.length (words.drop r1.pos.lastWord) r1.pos.lastWord { r1 with curUsed := r1.curUsed ++ [(look.st.family, look.st.mode)] }
  generalize wordLoop M cfg width h' i words.length (words.drop r1.pos.lastWord) r1.pos.lastWord { r1 with curUsed := r1.curUsed ++ [(look.st.family, look.st.mode)] } = lo at g1 g2 g3 ⊢
  generalize wordLoop M cfg width h i words.length (words.drop r1.pos.lastWord) r1.pos.lastWord { r1 with curUsed := r1.curUsed ++ [(look.st.family, look.st.mode)] } = hi at g1 g2 g3 ⊢
  simp only [hl] at g1
  by_cases hlo : lo.2 = true
  · cases g3 hlo
    exact ⟨by split <;> exact g1, List.prefix_refl _, fun _ => rfl⟩
  · rw [if_neg hlo]
    exact ⟨by split <;> exact g1, by split <;> exact g2, fun hf => absurd hf hlo⟩

theorem partLoop_below (M : Metrics) (cfg : TCfg) (width : Rat) {h h' : Rat} (hh : h' ≤ h) : ∀ (l : List TItem) (i : Nat) (r : RunSt),
    Below r (partLoop M cfg width h' l i r) (partLoop M cfg width h l i r) := by
  intro l
  induction l with
  | nil => intro i r; exact ⟨List.prefix_refl _, List.prefix_refl _, fun _ => rfl⟩
  | cons e l ih =>
    intro i r
    cases e with
    | skip => exact ih _ _
    | br =>
      unfold partLoop
      have hb := addCurrentLine_below cfg hh true { r with pos := { r.pos with partAdded := i + 1, wordAdded := 0 } }
      simp only
      generalize addCurrentLine cfg h' true { r with pos := { r.pos with partAdded := i + 1, wordAdded := 0 } } = lo at hb ⊢
      generalize addCurrentLine cfg h true { r with pos := { r.pos with partAdded := i + 1, wordAdded := 0 } } = hi at hb ⊢
      obtain ⟨g1, g2, g3⟩ := hb
      obtain ⟨t1, t2, t3⟩ := ih (i + 1) { hi.1 with cur := TLine.new width cfg.align cfg.lineHeight }
      by_cases hlo : lo.2 = true
      · cases g3 hlo
        rw [if_pos hlo, if_pos hlo]
        exact ⟨g1.trans t1, t2, t3⟩
      · rw [if_neg hlo]
        by_cases hhi : hi.2 = true
        · rw [if_pos hhi]
          exact ⟨g1.trans t1, g2.trans t1, by intro hf; cases hf⟩
        · rw [if_neg hhi]
          exact ⟨g1, g2, by intro hf; cases hf⟩
    | text words look ids =>
      unfold partLoop
      have hb := addPart_below M cfg width hh i words look ids r
      simp only
      generalize addPart M cfg width h' i words look ids r = lo at hb ⊢
      generalize addPart M cfg width h i words look ids r = hi at hb ⊢
      obtain ⟨g1, g2, g3⟩ := hb
      obtain ⟨t1, t2, t3⟩ := ih (i + 1) hi.1
      by_cases hlo : lo.2 = true
      · cases g3 hlo
        rw [if_pos hlo, if_pos hlo]
        exact ⟨g1.trans t1, t2, t3⟩
      · rw [if_neg hlo]
        by_cases hhi : hi.2 = true
        · rw [if_pos hhi]
          exact ⟨g1.trans t1, g2.trans t1, fun hf => absurd hf hlo⟩
        · rw [if_neg hhi]
          exact ⟨g1, g2, fun hf => absurd hf hlo⟩

/-- `finished` is set at the end only -/
theorem notFinished_loops (M : Metrics) (cfg : TCfg) (width h : Rat) :
    (∀ (b : Bool) (r : RunSt), (addCurrentLine cfg h b r).1.pos.finished = r.pos.finished) ∧ ∀ (l : List TItem) (i : Nat) (r : RunSt), (partLoop M cfg width h l i r).1.pos.finished = r.pos.finished := by
  have h1 : ∀ (b : Bool) (r : RunSt), (addCurrentLine cfg h b r).1.pos.finished = r.pos.finished := by
    intro b r
    obtain ⟨k, no, yes, e, -, -, e1, e2⟩ := addCurrentLine_cases cfg b r
    rw [e]
    split
    · exact e1
    · exact e2
  have h2 : ∀ (i n : Nat) (ws : List Str) (k : Nat) (r : RunSt), (wordLoop M cfg width h i n ws k r).1.pos.finished = r.pos.finished := by
    intro i n ws
    induction ws with
    | nil => intro k r; rfl
    | cons w ws ih =>
      intro k r
      unfold wordLoop
      split
      · rw [ih]
      · simp only
        split
        · rw [ih]; exact h1 _ _
        · exact h1 _ _
      · rw [ih]
      · rw [ih]
  refine ⟨h1, fun l => ?_⟩
  induction l with
  | nil => intro i r; rfl
  | cons e l ih =>
    intro i r
    cases e with
    | skip => exact ih _ _
    | br =>
      unfold partLoop
      simp only
      split
      · rw [ih]; exact h1 _ _
      · exact h1 _ _
    | text words look ids =>
      have h3 : (addPart M cfg width h i words look ids r).1.pos.finished = r.pos.finished := by
        have hs : (setupList cfg { r with cur := r.cur.addLinePart look ids }).pos.finished = r.pos.finished := by
          unfold setupList
          split
          · rfl
          · split <;> rfl
        unfold addPart
        simp only
        split
        · exact (h2 _ _ _ _ _).trans hs
        · exact (h2 _ _ _ _ _).trans hs
      unfold partLoop
      simp only
      split
      · rw [ih]; exact h3
      · exact h3

/-- a paragraph in a lower rectangle has the first lines; if it is finished there, nothing is different -/
theorem textRun_below (M : Metrics) (cfg : TCfg) (width : Rat) {h h' : Rat} (hh : h' ≤ h) (pos : TPos) (hp : pos.finished = false) :
    (textRun M cfg width h' pos).lines <+: (textRun M cfg width h pos).lines ∧
      ((textRun M cfg width h' pos).pos.finished = true → textRun M cfg width h pos = textRun M cfg width h' pos) := by
  have hf' := (notFinished_loops M cfg width h').2 (cfg.content.drop pos.lastPart) pos.lastPart (runInit cfg width pos)
  have hf1 := (notFinished_loops M cfg width h').1
  obtain ⟨g1, g2, g3⟩ := partLoop_below M cfg width hh (cfg.content.drop pos.lastPart) pos.lastPart (runInit cfg width pos)
  have hp0 : (runInit cfg width pos).pos.finished = false := hp
  rw [hp0] at hf'
  unfold textRun
  simp only
  generalize partLoop M cfg width h' (cfg.content.drop pos.lastPart) pos.lastPart (runInit cfg width pos) = lo at g1 g2 g3 hf' ⊢
  generalize partLoop M cfg width h (cfg.content.drop pos.lastPart) pos.lastPart (runInit cfg width pos) = hi at g1 g2 g3 ⊢
  have hb := addCurrentLine_below cfg hh true hi.1
  by_cases hlo : lo.2 = true
  · cases g3 hlo
    rw [if_pos hlo, if_pos hlo]
    obtain ⟨b1, b2, b3⟩ := hb
    by_cases hc : (addCurrentLine cfg h' true lo.1).2 = true
    · rw [b3 hc]
      exact ⟨List.prefix_refl _, fun _ => rfl⟩
    · rw [if_neg hc]
      refine ⟨by split <;> exact b2, fun hfin => ?_⟩
      rw [hf1, hf'] at hfin
      cases hfin
  · rw [if_neg hlo]
    refine ⟨?_, fun hfin => ?_⟩
    · split
      · split
        · exact g2.trans hb.grows
        · exact g2.trans hb.grows
      · exact g2
    · rw [hf'] at hfin; cases hfin

/-! ### ids -/

/-- the ids have rectangles, and are those before and others after them -/
def IdsGrow (d d' : List (Str × List IdRect)) : Prop :=
  (∀ p ∈ d, p.2 ≠ []) → (∀ p ∈ d', p.2 ≠ []) ∧ d.map Prod.fst <+: d'.map Prod.fst

theorem IdsGrow.refl (d : List (Str × List IdRect)) : IdsGrow d d := fun h => ⟨h, List.prefix_refl _⟩

theorem IdsGrow.trans {a b c : List (Str × List IdRect)} (h : IdsGrow a b) (h' : IdsGrow b c) : IdsGrow a c :=
  fun k => ⟨(h' (h k).1).1, (h k).2.trans (h' (h k).1).2⟩

theorem dset_prefix {ν : Type} (k : Str) (v : ν) (d : List (Str × ν)) : d.map Prod.fst <+: (dset k v d).map Prod.fst := by
  induction d with
  | nil => exact List.nil_prefix
  | cons p d ih =>
    simp only [dset]
    split
    · rename_i hp; simp [hp]
    · simpa using ih

theorem mem_dset {ν : Type} {k : Str} {v : ν} {d : List (Str × ν)} {p : Str × ν} (h : p ∈ dset k v d) : p = (k, v) ∨ p ∈ d := by
  induction d with
  | nil => simpa [dset] using h
  | cons q d ih =>
    simp only [dset] at h
    split at h
    · rcases List.mem_cons.1 h with h | h
      · exact .inl h
      · exact .inr (List.mem_cons_of_mem _ h)
    · rcases List.mem_cons.1 h with h | h
      · exact .inr (h ▸ List.mem_cons_self ..)
      · rcases ih h with h | h
        · exact .inl h
        · exact .inr (List.mem_cons_of_mem _ h)

theorem addIdRect_grow (id : Str) (r : IdRect) (d : List (Str × List IdRect)) : IdsGrow d (addIdRect id r d) := by
  refine fun h => ⟨fun p hp => ?_, dset_prefix _ _ _⟩
  rcases mem_dset hp with rfl | hp
  · simp
  · exact h p hp

theorem partIds_grow (F : TFmt) (p : TPart) (x y w : Rat) (d : List (Str × List IdRect)) : IdsGrow d (partIds F p x y w d) := by
  unfold partIds
  simp only
  generalize p.ids.getD [] = l
  induction l generalizing d with
  | nil => exact .refl d
  | cons i l ih => exact (addIdRect_grow i _ d).trans (ih _)

theorem outputParts_grow {F : TFmt} {M : Metrics} {E : Encs} {y factor : Rat} : ∀ (l : List TPart) (s : LoopSt) {s' : LoopSt}, outputParts F M E y factor l s = .ok s' → IdsGrow s.ids s'.ids := by
  intro l
  induction l with
  | nil => intro s s' h; cases h; exact .refl _
  | cons p l ih =>
    intro s s' h
    unfold outputParts at h
    split at h
    · cases h
    · rename_i s1 h1
      refine IdsGrow.trans ?_ (ih _ h)
      unfold outputPart at h1
      simp only at h1
      split at h1
      · cases h1
      · split at h1
        · split at h1
          · cases h1
          · cases h1; exact partIds_grow _ _ _ _ _ _
        · cases h1; exact .refl _

theorem streamLines_grow {F : TFmt} {M : Metrics} {E : Encs} {cfg : TCfg} {enc : Option (Str × Str)} {width : Rat} : ∀ (l : List (TLine × Bool)) (o : OutSt) {o' : OutSt},
    streamLines F M E cfg enc width l o = .ok o' → IdsGrow o.ids o'.ids := by
  intro l
  induction l with
  | nil => intro o o' h; cases h; exact .refl _
  | cons p l ih =>
    intro o o' h
    unfold streamLines at h
    split at h
    · cases h
    · rename_i o1 h1
      refine IdsGrow.trans ?_ (ih _ h)
      unfold addLineToStream at h1
      split at h1
      · cases h1
      · simp only at h1
        split at h1
        · cases h1
        · rename_i r hr
          cases h1
          exact outputParts_grow _ _ hr

theorem streamLines_append {F : TFmt} {M : Metrics} {E : Encs} {cfg : TCfg} {enc : Option (Str × Str)} {width : Rat} (l2 : List (TLine × Bool)) : ∀ (l1 : List (TLine × Bool)) (o : OutSt) {o1 o' : OutSt},
    streamLines F M E cfg enc width l1 o = .ok o1 → streamLines F M E cfg enc width (l1 ++ l2) o = .ok o' → streamLines F M E cfg enc width l2 o1 = .ok o' := by
  intro l1
  induction l1 with
  | nil => intro o o1 o' h h'; cases h; exact h'
  | cons p l ih =>
    intro o o1 o' h h'
    rw [List.cons_append] at h'
    unfold streamLines at h h'
    split at h
    · cases h
    · rename_i o2 h2
      rw [h2] at h'
      exact ih _ h h'

/-- the `type` of a part, and the `ids` of the `result` of a paragraph, text.py:519-523: each with its number of rectangles -/
def DocPart.note : DocPart → NPart
  | .par _ _ _ _ _ _ _ ids _ _ => .paragraph (ids.map fun p => (p.1, p.2.length))
  | .image .. => .image

theorem marks_of_ids {d : List (Str × List IdRect)} (h : ∀ p ∈ d, p.2 ≠ []) :
    ((d.map fun p => (p.1, p.2.length)).filter fun p => p.2 ≠ 0 ∧ notePrefix <+: p.1).map Prod.fst = (d.map Prod.fst).filter fun i => decide (notePrefix <+: i) := by
  induction d with
  | nil => rfl
  | cons p d ih =>
    have hp : p.2.length ≠ 0 := by simpa using h p (List.mem_cons_self ..)
    have ih := ih (fun q hq => h q (List.mem_cons_of_mem _ hq))
    simp only [List.map_cons, List.filter_cons, hp, ne_eq, not_false_eq_true, true_and]
    split
    · simp only [List.map_cons]; rw [← ih]
    · rw [← ih]

theorem docExec_below (T : TextEnv) (s : DocLeaf) (x y w : Rat) {h h' : Rat} (hh : h' ≤ h) {o o' : CellOut DocLeaf DocPart LineLook (PDFColor Rat)} (ho : docExec T s x y w h = .ok o)
    (ho' : docExec T s x y w h' = .ok o') :
    marksOn (o'.parts.map DocPart.note) <+: marksOn (o.parts.map DocPart.note) ∧
      (o'.finished = true → o.finished = true ∧ o'.height = o.height ∧ marksOn (o'.parts.map DocPart.note) = marksOn (o.parts.map DocPart.note)) := by
  cases s with
  | par a rects correct =>
    simp only [docExec, docParExec] at ho ho'
    by_cases hf : (textRuns T.metrics a.cfg rects TPos.init).1.finished = true
    · rw [if_pos hf] at ho ho'
      cases ho; cases ho'
      exact ⟨List.prefix_refl _, fun _ => ⟨rfl, rfl, rfl⟩⟩
    · rw [if_neg hf] at ho ho'
      generalize (textRuns T.metrics a.cfg rects TPos.init).1 = pos at hf ho ho'
      obtain ⟨k1, k2⟩ := textRun_below T.metrics a.cfg w hh pos (by simpa using hf)
      unfold textOut at ho ho'
      cases h1 : streamLines T.fmt T.metrics T.encs a.cfg a.enc w (textRun T.metrics a.cfg w h pos).lines (outInit pos.isFirstLine correct) with
      | error e => rw [h1] at ho; cases ho
      | ok u =>
      cases h2 : streamLines T.fmt T.metrics T.encs a.cfg a.enc w (textRun T.metrics a.cfg w h' pos).lines (outInit pos.isFirstLine correct) with
      | error e => rw [h2] at ho'; cases ho'
      | ok v =>
        rw [h1] at ho
        rw [h2] at ho'
        cases ho; cases ho'
        refine ⟨?_, fun hfin => ?_⟩
        · obtain ⟨rest, hrest⟩ := k1
          rw [← hrest] at h1
          have h3 := streamLines_append rest _ _ h2 h1
          have hv := (streamLines_grow _ _ h2 (by simp [outInit])).1
          obtain ⟨hu, hpre⟩ := streamLines_grow _ _ h3 hv
          simp only [List.map_cons, List.map_nil, DocPart.note, marksOn, List.append_nil]
          rw [marks_of_ids hv, marks_of_ids hu]
          exact hpre.filter _
        · have he := k2 hfin
          rw [he] at h1
          rw [h1] at h2
          cases h2
          exact ⟨by rw [he]; exact hfin, by simp only [he], rfl⟩
  | image im shown =>
    cases shown with
    | true =>
      simp only [docExec] at ho ho'
      cases ho; cases ho'
      exact ⟨List.prefix_refl _, fun _ => ⟨rfl, rfl, rfl⟩⟩
    | false =>
      simp only [docExec, docImageExec] at ho ho'
      cases hs : scaled w im.height im.width with
      | error e => rw [hs] at ho; cases ho
      | ok ih =>
        rw [hs] at ho ho'
        simp only at ho ho'
        by_cases hlt : ih < h'
        · rw [if_pos hlt] at ho'
          rw [if_pos (lt_of_lt_of_le hlt hh)] at ho
          cases ho; cases ho'
          exact ⟨List.prefix_refl _, fun _ => ⟨rfl, rfl, rfl⟩⟩
        · rw [if_neg hlt] at ho'
          cases ho'
          exact ⟨List.nil_prefix, by intro hf; cases hf⟩

end Verif
