import Verif.Model.Cells
import Verif.Spec.Tables
import Verif.Spec.CellText
import Verif.Props.C22_C23_Height
/-! Facts about the paragraphs in the cells of a table. -/
namespace Verif
open Spec

/-! ### the words of several runs -/

theorem wordFold_shift {W : Type} (l : List (WTok W)) (ws : List (List W)) (p : List W) (ws0 : List (List W)) :
    l.foldl wordStep (ws0 ++ ws, p) = (ws0 ++ (l.foldl wordStep (ws, p)).1, (l.foldl wordStep (ws, p)).2) := by
  induction l generalizing ws p with
  | nil => rfl
  | cons t l ih =>
    cases t with
    | word w => simp only [List.foldl_cons, wordStep]; exact ih ws (p ++ [w])
    | sep =>
      simp only [List.foldl_cons, wordStep]
      by_cases h : p.isEmpty
      · simp only [h, if_true]; exact ih ws p
      · simp only [h, Bool.false_eq_true, if_false]
        rw [List.append_assoc]
        exact ih (ws ++ [p]) []

theorem wordState_lines (ls : List (TLine × Bool)) : (wordState (ls.flatMap lineToks)).2 = [] := by
  rcases List.eq_nil_or_concat ls with rfl | ⟨l, x, rfl⟩
  · rfl
  · rw [List.concat_eq_append, List.flatMap_append, List.flatMap_cons, List.flatMap_nil, List.append_nil, lineToks,
      ← List.append_assoc, wordState_append, List.foldl_cons, List.foldl_nil]
    exact wordStep_sep_snd _

theorem wordsOf_lines_append (a : List (TLine × Bool)) (b : List (WTok Piece)) :
    wordsOf (a.flatMap lineToks ++ b) = wordsOf (a.flatMap lineToks) ++ wordsOf b := by
  unfold wordsOf
  rw [List.append_assoc, wordState_append, wordState_append (a.flatMap lineToks), List.foldl_cons, List.foldl_nil,
    wordStep_sep_nil _ (wordState_lines a)]
  have : wordState (a.flatMap lineToks) = ((wordState (a.flatMap lineToks)).1 ++ [], []) := by
    rw [List.append_nil]
    exact Prod.ext rfl (wordState_lines a)
  rw [this, wordFold_shift]
  simp [wordState]

theorem textRuns_ended (M : Metrics) (cfg : TCfg) (rs : List (Rat × Rat)) (pos : TPos) (h : pos.finished = true) :
    textRuns M cfg rs pos = (pos, []) := by
  cases rs with
  | nil => rfl
  | cons a l => obtain ⟨w, ht⟩ := a; simp [textRuns, h]

theorem textRuns_snoc (M : Metrics) (cfg : TCfg) (w h : Rat) : ∀ (rs : List (Rat × Rat)) (pos : TPos),
    textRuns M cfg (rs ++ [(w, h)]) pos = if (textRuns M cfg rs pos).1.finished then textRuns M cfg rs pos
      else ((textRun M cfg w h (textRuns M cfg rs pos).1).pos, (textRuns M cfg rs pos).2 ++ [(textRun M cfg w h (textRuns M cfg rs pos).1).lines]) := by
  intro rs
  induction rs with
  | nil =>
    intro pos
    simp only [List.nil_append, textRuns]
    by_cases hf : pos.finished = true <;> simp [hf]
  | cons a l ih =>
    intro pos
    obtain ⟨w', h'⟩ := a
    simp only [List.cons_append, textRuns]
    by_cases hf : pos.finished = true
    · simp [hf]
    · simp only [hf, Bool.false_eq_true, if_false, ih]
      by_cases hg : (textRuns M cfg l (textRun M cfg w' h' pos).pos).1.finished = true <;> simp [hg]

/-- the words shown in the rectangles `rs` -/
def parShown (M : Metrics) (cfg : TCfg) (rs : List (Rat × Rat)) : List (List Piece) :=
  wordsOf ((textRuns M cfg rs TPos.init).2.flatten.flatMap lineToks)

theorem parShown_prefix (M : Metrics) (cfg : TCfg) (rs : List (Rat × Rat)) : parShown M cfg rs <+: wordsOf (cfg.content.flatMap itemToks) :=
  C20_prefix M cfg rs

theorem parShown_snoc (M : Metrics) (cfg : TCfg) (rs : List (Rat × Rat)) (w h : Rat) (hf : (textRuns M cfg rs TPos.init).1.finished = false) :
    parShown M cfg (rs ++ [(w, h)]) = parShown M cfg rs ++ wordsOf ((textRun M cfg w h (textRuns M cfg rs TPos.init).1).lines.flatMap lineToks) := by
  unfold parShown
  rw [textRuns_snoc, if_neg (by simp [hf]), List.flatten_append, List.flatMap_append, wordsOf_lines_append]
  simp

/-- the words still to be shown -/
def parRest (M : Metrics) (cfg : TCfg) (rs : List (Rat × Rat)) : List (List Piece) :=
  (wordsOf (cfg.content.flatMap itemToks)).drop (parShown M cfg rs).length

theorem parRest_snoc (M : Metrics) (cfg : TCfg) (rs : List (Rat × Rat)) (w h : Rat) (hf : (textRuns M cfg rs TPos.init).1.finished = false) :
    wordsOf ((textRun M cfg w h (textRuns M cfg rs TPos.init).1).lines.flatMap lineToks) ++ parRest M cfg (rs ++ [(w, h)]) = parRest M cfg rs := by
  obtain ⟨t, ht⟩ := parShown_prefix M cfg (rs ++ [(w, h)])
  unfold parRest
  rw [← ht, parShown_snoc M cfg rs w h hf]
  simp

theorem parRest_done (M : Metrics) (cfg : TCfg) (rs : List (Rat × Rat)) (hf : (textRuns M cfg rs TPos.init).1.finished = true) :
    parRest M cfg rs = [] := by
  unfold parRest parShown
  rw [C20_words M cfg rs hf, List.drop_length]

theorem parRest_new (M : Metrics) (cfg : TCfg) : parRest M cfg [] = wordsOf (cfg.content.flatMap itemToks) := by
  simp [parRest, parShown, textRuns, wordsOf, wordState, wordStep]

/-! ### heights -/

theorem bottomLoop_nonneg (l : List TPart) : ∀ b : Rat, 0 ≤ b → 0 ≤ bottomLoop l b := by
  induction l with
  | nil => intro b h; exact h
  | cons p l ih =>
    intro b h
    rw [bottomLoop]
    refine ih _ ?_
    split
    · rename_i hc; exact le_of_lt (lt_of_le_of_lt h hc.2)
    · exact h

theorem lineHeightOf_ge (l : TLine) : l.topMargin ≤ lineHeightOf l := by
  unfold lineHeightOf
  have h1 := foldr_max_nonneg (l.parts.map fun p => p.look.st.size)
  have h2 := foldr_max_nonneg (l.parts.map fun p => p.look.st.rise)
  linarith

/-- what is known during a run: no line is without height -/
structure LineInv (cfg : TCfg) (height : Rat) (r : RunSt) : Prop where
  top : 0 ≤ r.cur.topMargin
  first : r.lines = [] → r.cur.topMargin = cfg.lineHeight ∧ r.firstLineAdded = false
  nil : r.lines = [] → r.curHeight = 0
  pos : r.lines ≠ [] → 0 < r.curHeight ∧ r.curHeight ≤ height
  open_ : r.pos.finished = false

/-- what a run gives -/
structure LinePost (height : Rat) (r : RunSt) : Prop where
  nil : r.lines = [] → r.curHeight = 0 ∧ r.pos.finished = false
  pos : r.lines ≠ [] → 0 < r.curHeight ∧ r.curHeight ≤ height

theorem LineInv.accept {cfg : TCfg} {height : Rat} (hl : 0 < cfg.lineHeight) {r : RunSt} {l : TLine} (b : Bool) (h : LineInv cfg height r) (ht : l.topMargin = r.cur.topMargin)
    (hh : ¬ (lineH cfg r l + r.curHeight > height)) :
    0 < (accept cfg r l b).curHeight ∧ (accept cfg r l b).curHeight ≤ height := by
  have hge := lineHeightOf_ge l
  refine ⟨?_, by show r.curHeight + lineH cfg r l ≤ height; linarith [not_lt.1 hh]⟩
  simp only [Verif.accept, lineH, height_eq]
  by_cases hn : r.lines = []
  · obtain ⟨h1, h2⟩ := h.first hn
    rw [ht, h1] at hge
    rw [h2, h.nil hn]
    simp only [Bool.false_eq_true, if_false]
    linarith
  · have h1 := (h.pos hn).1
    have h2 : 0 ≤ lineHeightOf l := le_trans (by rw [ht]; exact h.top) hge
    split
    · have := mul_nonneg h2 hl.le
      linarith
    · linarith

theorem partStart_finished (cfg : TCfg) (look : TLook) (ids : Option (List Str)) (r : RunSt) :
    (partStart cfg look ids r).pos.finished = r.pos.finished := by
  unfold partStart setupList
  simp only []
  split
  · rfl
  · split <;> rfl

theorem lineInv_hyp (M : Metrics) (cfg : TCfg) (hl : 0 < cfg.lineHeight) (width height : Rat) :
    RunHyp M cfg width height (fun r _ _ => LineInv cfg height r) (LinePost height) where
  added := by
    intro r i k ws look ids w l' h _ _ _ _ hc
    cases hc with
    | first _ _ _ _ _ _ hm => exact ⟨by rw [hm.2.2]; exact h.top, fun hn => ⟨by rw [hm.2.2]; exact (h.first hn).1, (h.first hn).2⟩, h.nil, h.pos, h.open_⟩
    | accum _ _ _ _ _ _ hm => exact ⟨by rw [hm.2.2]; exact h.top, fun hn => ⟨by rw [hm.2.2]; exact (h.first hn).1, (h.first hn).2⟩, h.nil, h.pos, h.open_⟩
  keep := by
    intro r i k ws look ids w l' res h _ _ _ _ hc hres
    cases hc with
    | first => rcases hres with h | h <;> cases h
    | accum => rcases hres with h | h <;> cases h
    | finished => rcases hres with h | h <;> cases h
    | ignored => exact ⟨h.top, h.first, h.nil, h.pos, h.open_⟩
    | preadded _ _ _ _ _ _ hm => exact ⟨by rw [hm.2.2]; exact h.top, fun hn => ⟨by rw [hm.2.2]; exact (h.first hn).1, (h.first hn).2⟩, h.nil, h.pos, h.open_⟩
  finOk := by
    intro r i k ws look ids w l' nl b h _ _ _ _ hc _ hh
    cases hc with
    | finished _ _ _ _ _ _ hm _ _ _ _ _ _ nt =>
      have hp := LineInv.accept hl b h hm.2.2 hh
      exact ⟨by rw [show (({ accept cfg r l' b with cur := { nl with maxWidth := width - cfg.listIndent } } : RunSt).cur.topMargin) = nl.topMargin from rfl, nt]; exact bottomLoop_nonneg _ _ (le_refl _),
        fun hn => by simp [accept] at hn, fun hn => by simp [accept] at hn, fun _ => hp, h.open_⟩
  finBad := by
    intro r i k ws look ids w l' nl h _ _ _ _ _ _
    exact ⟨fun hn => ⟨h.nil hn, h.open_⟩, h.pos⟩
  part := by
    intro r i k ws look ids h _ _
    obtain ⟨e1, e2, e3, e4, _, ⟨w, e6⟩⟩ := partStart_fields cfg look ids r
    exact ⟨by rw [e6]; exact h.top, by rw [e2, e6, e3]; exact h.first, by rw [e1, e2]; exact h.nil, by rw [e1, e2]; exact h.pos, by
      rw [partStart_finished]; exact h.open_⟩
  partEnd := by intro r i ws look ids h _ _; exact ⟨h.top, h.first, h.nil, h.pos, h.open_⟩
  skip := by intro r i h _ _; exact h
  brOk := by
    intro r i h _ _ hh
    have hp := LineInv.accept (r := { r with pos := { r.pos with partAdded := i + 1, wordAdded := 0 } }) (l := closeLine true r.cur) hl true
      ⟨h.top, h.first, h.nil, h.pos, h.open_⟩ rfl hh
    exact ⟨hl.le, fun hn => by simp [accept] at hn, fun hn => by simp [accept] at hn, fun _ => hp, h.open_⟩
  brBad := by intro r i h _ _ _; exact ⟨fun hn => ⟨h.nil hn, h.open_⟩, h.pos⟩

/-- a run without lines has no height and does not finish the paragraph; one with lines has some height -/
theorem textRun_pos (M : Metrics) (cfg : TCfg) (hl : 0 < cfg.lineHeight) (width height : Rat) (pos : TPos)
    (hv : ValidPos cfg.content pos.lastPart pos.lastWord) (hfin : pos.finished = false) : LinePost height (textRun M cfg width height pos) := by
  refine textRun_ind (lineInv_hyp M cfg hl width height) pos hv.2 hv.1 ?_ (R := LinePost height) (fun r hr => hr) ?_ ?_
  · exact ⟨hl.le, fun _ => ⟨rfl, rfl⟩, fun _ => rfl, fun h => absurd rfl h, hfin⟩
  · intro r hr _ hh
    have := LineInv.accept (l := closeLine true r.cur) hl true hr rfl hh
    exact ⟨fun hn => by simp [accept] at hn, fun _ => this⟩
  · intro r hr _ _
    exact ⟨fun hn => ⟨hr.nil hn, hr.open_⟩, hr.pos⟩

theorem textRuns_valid (M : Metrics) (cfg : TCfg) (rs : List (Rat × Rat)) (hf : (textRuns M cfg rs TPos.init).1.finished = false) :
    ValidPos cfg.content (textRuns M cfg rs TPos.init).1.lastPart (textRuns M cfg rs TPos.init).1.lastWord := by
  obtain ⟨E, h⟩ := TReach.post (M := M) (cfg := cfg) ⟨rs, rfl, hf⟩
  exact h.lastV

/-! ### paragraphs and images as cells -/

/-- what is left of a content -/
def leafRest (M : Metrics) : Leaf → List LAtom
  | .par cfg rs => (parRest M cfg rs).map .word
  | .image im shown => if shown then [] else [.image im]

instance (c : Leaf) (w : Rat) : Decidable (LeafOk c w) := by
  cases c <;> (unfold LeafOk; infer_instance)

variable {B C : Type}

/-- `leafExec` for such contents and boxes -/
def leafSafe (M : Metrics) (c : Leaf) (x y w h : Rat) : Except PyErr (CellOut Leaf LeafPart B C) :=
  if LeafOk c w then leafExec M c x y w h else .error .exception

theorem leafSafe_ok {M : Metrics} {c : Leaf} {x y w h : Rat} {o : CellOut Leaf LeafPart B C} (ho : leafSafe M c x y w h = .ok o) :
    LeafOk c w ∧ leafExec M c x y w h = .ok o := by
  unfold leafSafe at ho
  split at ho
  · exact ⟨by assumption, ho⟩
  · cases ho

/-- the cases of `leafExec` -/
theorem leafExec_cases {M : Metrics} {c : Leaf} {x y w h : Rat} {o : CellOut Leaf LeafPart B C} (ho : leafExec M c x y w h = .ok o) :
    (∃ cfg rs, c = .par cfg rs ∧ (textRuns M cfg rs TPos.init).1.finished = true ∧ o = leafDone c) ∨
    (∃ cfg rs, c = .par cfg rs ∧ (textRuns M cfg rs TPos.init).1.finished = false ∧
      o = ⟨[.par x y w (textRun M cfg w h (textRuns M cfg rs TPos.init).1).curHeight cfg (textRun M cfg w h (textRuns M cfg rs TPos.init).1).lines], [], [],
        (textRun M cfg w h (textRuns M cfg rs TPos.init).1).curHeight, (textRun M cfg w h (textRuns M cfg rs TPos.init).1).pos.finished, .par cfg (rs ++ [(w, h)])⟩) ∨
    (∃ im, c = .image im true ∧ o = leafDone c) ∨
    (∃ im, c = .image im false ∧ im.width ≠ 0 ∧ w * im.height / im.width < h ∧
      o = ⟨[.image im x (y - w * im.height / im.width) w (w * im.height / im.width)], [], [], w * im.height / im.width, true, .image im true⟩) ∨
    (∃ im, c = .image im false ∧ im.width ≠ 0 ∧ ¬ w * im.height / im.width < h ∧ o = ⟨[], [], [], 0, false, .image im false⟩) := by
  cases c with
  | par cfg rs =>
    simp only [leafExec, parExec, Except.ok.injEq] at ho
    cases hf : (textRuns M cfg rs TPos.init).1.finished with
    | true =>
      rw [hf] at ho
      simp only [if_true] at ho
      exact Or.inl ⟨cfg, rs, rfl, hf, ho.symm⟩
    | false =>
      rw [hf] at ho
      simp only [Bool.false_eq_true, if_false] at ho
      exact Or.inr (Or.inl ⟨cfg, rs, rfl, hf, ho.symm⟩)
  | image im shown =>
    cases shown with
    | true =>
      simp only [leafExec, Except.ok.injEq] at ho
      exact Or.inr (Or.inr (Or.inl ⟨im, rfl, ho.symm⟩))
    | false =>
      simp only [leafExec, imageExec, scaled] at ho
      by_cases hz : im.width = 0
      · simp [hz] at ho
      · simp only [hz, if_false] at ho
        by_cases hh : w * im.height / im.width < h
        · simp only [hh, if_true, Except.ok.injEq] at ho
          exact Or.inr (Or.inr (Or.inr (Or.inl ⟨im, rfl, hz, hh, ho.symm⟩)))
        · simp only [hh, if_false, Except.ok.injEq] at ho
          exact Or.inr (Or.inr (Or.inr (Or.inr ⟨im, rfl, hz, hh, ho.symm⟩)))

/-- a width for which a content can be shown is one for what is left of it -/
theorem leafExec_next {M : Metrics} {c : Leaf} {x y w h w' : Rat} {o : CellOut Leaf LeafPart B C} (ho : leafExec M c x y w h = .ok o)
    (hk : LeafOk c w') : LeafOk o.next w' := by
  rcases leafExec_cases ho with ⟨cfg, rs, rfl, -, rfl⟩ | ⟨cfg, rs, rfl, -, rfl⟩ | ⟨im, rfl, rfl⟩ | ⟨im, rfl, -, -, rfl⟩ | ⟨im, rfl, -, -, rfl⟩ <;> exact hk

theorem image_height_pos {im : PImg} {w : Rat} (h : LeafOk (.image im false) w) : 0 < w * im.height / im.width := by
  obtain ⟨h1, h2, h3⟩ := h
  have h1' : (0 : Rat) < im.width := by exact_mod_cast h1
  have h2' : (0 : Rat) < im.height := by exact_mod_cast h2
  exact div_pos (mul_pos h3 h2') h1'

theorem leafSafe_honest (M : Metrics) : Honest (leafSafe M : Leaf → Rat → Rat → Rat → Rat → Except PyErr (CellOut Leaf LeafPart B C)) leafPartAtoms (leafRest M) where
  step := by
    intro c x y w h o ho
    obtain ⟨-, ho⟩ := leafSafe_ok ho
    rcases leafExec_cases ho with ⟨cfg, rs, rfl, -, rfl⟩ | ⟨cfg, rs, rfl, hf, rfl⟩ | ⟨im, rfl, rfl⟩ | ⟨im, rfl, -, -, rfl⟩ | ⟨im, rfl, -, -, rfl⟩
    · simp [leafDone]
    · simp only [List.flatMap_cons, List.flatMap_nil, List.append_nil, leafPartAtoms, leafRest]
      rw [← List.map_append, parRest_snoc M cfg rs w h hf]
    · simp [leafDone]
    · simp [leafPartAtoms, leafRest]
    · simp [leafRest]
  done := by
    intro c x y w h o ho hfin
    obtain ⟨-, ho⟩ := leafSafe_ok ho
    rcases leafExec_cases ho with ⟨cfg, rs, rfl, hf, rfl⟩ | ⟨cfg, rs, rfl, hf, rfl⟩ | ⟨im, rfl, rfl⟩ | ⟨im, rfl, -, -, rfl⟩ | ⟨im, rfl, -, -, rfl⟩
    · simp [leafDone, leafRest, parRest_done M cfg rs hf]
    · simp only [leafRest]
      rw [parRest_done, List.map_nil]
      rw [textRuns_snoc, if_neg (by simp [hf])]
      exact hfin
    · simp [leafDone, leafRest]
    · simp [leafRest]
    · cases hfin
  zero := by
    intro c x y w h o ho hz
    obtain ⟨hk, ho⟩ := leafSafe_ok ho
    rcases leafExec_cases ho with ⟨cfg, rs, rfl, hf, rfl⟩ | ⟨cfg, rs, rfl, hf, rfl⟩ | ⟨im, rfl, rfl⟩ | ⟨im, rfl, -, -, rfl⟩ | ⟨im, rfl, -, -, rfl⟩
    · rfl
    · have hp := textRun_pos M cfg hk w h _ (textRuns_valid M cfg rs hf) hf
      have : (textRun M cfg w h (textRuns M cfg rs TPos.init).1).lines = [] := by
        by_contra hn
        exact absurd (hp.pos hn).1 (not_lt.2 hz)
      simp [leafPartAtoms, this, wordsOf, wordState, wordStep]
    · rfl
    · exact absurd (image_height_pos hk) (not_lt.2 hz)
    · rfl

end Verif
