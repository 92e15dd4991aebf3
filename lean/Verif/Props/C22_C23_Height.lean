import Verif.Props.C21_Width
import Mathlib.Data.List.MinMax
/-! C22: the height of a run. C23: a paragraph is finished after finitely many pages. -/
namespace Verif
open Spec

/-- the height of a line: its greatest font size, its greatest positive rise, and its top margin -/
def lineHeightOf (l : TLine) : Rat :=
  (l.parts.map fun p => p.look.st.size).foldr max 0 + (l.parts.map fun p => p.look.st.rise).foldr max 0 + l.topMargin

/-- the height of the lines of a rectangle: all but the first are scaled by the line height -/
def linesHeight (lh : Rat) : List (TLine × Bool) → Rat
  | [] => 0
  | x :: l => lineHeightOf x.1 + (l.map fun y => lineHeightOf y.1 * lh).sum

theorem heightLoop_eq (l : List TPart) : ∀ t h : Rat, 0 ≤ t →
    heightLoop l t h = (max t ((l.map fun p => p.look.st.rise).foldr max 0), max h ((l.map fun p => p.look.st.size).foldr max 0)) ∨
    (h < 0) := by
  induction l with
  | nil =>
    intro t h ht
    by_cases hh : h < 0
    · exact Or.inr hh
    · left; simp only [heightLoop, List.map_nil, List.foldr_nil]
      rw [max_eq_left ht, max_eq_left (not_lt.mp hh)]
  | cons p l ih =>
    intro t h ht
    by_cases hh : h < 0
    · exact Or.inr hh
    left
    have hh := not_lt.mp hh
    simp only [heightLoop, List.map_cons, List.foldr_cons]
    have e1 : (if p.look.st.rise > 0 ∧ p.look.st.rise > t then p.look.st.rise else t) = max t p.look.st.rise := by
      by_cases h1 : p.look.st.rise > t
      · rw [if_pos ⟨lt_of_le_of_lt ht h1, h1⟩, max_eq_right (le_of_lt h1)]
      · rw [if_neg (fun h => h1 h.2), max_eq_left (not_lt.mp h1)]
    have e2 : (if p.look.st.size > h then p.look.st.size else h) = max h p.look.st.size := by
      by_cases h1 : p.look.st.size > h
      · rw [if_pos h1, max_eq_right (le_of_lt h1)]
      · rw [if_neg h1, max_eq_left (not_lt.mp h1)]
    rw [e1, e2]
    rcases ih (max t p.look.st.rise) (max h p.look.st.size) (le_trans ht (le_max_left _ _)) with h3 | h3
    · rw [h3, max_assoc, max_assoc]
    · exact absurd h3 (not_lt.mpr (le_trans hh (le_max_left _ _)))

theorem foldr_max_nonneg (l : List Rat) : 0 ≤ l.foldr max 0 := by
  induction l with
  | nil => simp
  | cons a l ih => simp only [List.foldr_cons]; exact le_trans ih (le_max_right _ _)

theorem height_eq (l : TLine) : l.height = lineHeightOf l := by
  unfold TLine.height lineHeightOf
  rcases heightLoop_eq l.parts 0 0 (le_refl _) with h | h
  · rw [h]
    simp only [max_eq_right (foldr_max_nonneg _)]
    ring
  · exact absurd h (lt_irrefl _)

/-- what is known during a run -/
structure HInv (cfg : TCfg) (height : Rat) (r : RunSt) : Prop where
  sum : r.curHeight = linesHeight cfg.lineHeight r.lines
  first : r.firstLineAdded = true ↔ r.lines ≠ []
  le : r.curHeight ≤ max 0 height

theorem hInv_accept {cfg : TCfg} {height : Rat} {r : RunSt} {l : TLine} (b : Bool) (h : HInv cfg height r)
    (hh : ¬ (lineH cfg r l + r.curHeight > height)) : HInv cfg height (accept cfg r l b) := by
  refine ⟨?_, by simp [accept], ?_⟩
  · simp only [accept]
    rw [h.sum]
    unfold lineH
    cases hl : r.lines with
    | nil =>
      have : r.firstLineAdded = false := by
        by_contra hc
        exact (h.first.mp (by simpa using hc)) hl
      rw [this]
      simp [linesHeight, height_eq]
    | cons x xs =>
      have : r.firstLineAdded = true := h.first.mpr (by rw [hl]; simp)
      rw [this]
      simp [linesHeight, height_eq]
      ring
  · simp only [accept]
    have := not_lt.mp hh
    exact le_trans (by linarith) (le_max_right _ _)

/-- what is known after a run -/
def HPost (cfg : TCfg) (height : Rat) (r : RunSt) : Prop :=
  r.curHeight = linesHeight cfg.lineHeight r.lines ∧ r.curHeight ≤ max 0 height

theorem partStart_fields (cfg : TCfg) (look : TLook) (ids : Option (List Str)) (r : RunSt) :
    (partStart cfg look ids r).curHeight = r.curHeight ∧ (partStart cfg look ids r).lines = r.lines ∧
    (partStart cfg look ids r).firstLineAdded = r.firstLineAdded ∧ (partStart cfg look ids r).used = r.used ∧
    (∃ b, (partStart cfg look ids r).pos = { r.pos with listDone := b }) ∧
    (∃ w, (partStart cfg look ids r).cur = { r.cur.addLinePart look ids with maxWidth := w }) := by
  unfold partStart setupList
  simp only []
  split
  · exact ⟨rfl, rfl, rfl, rfl, ⟨_, rfl⟩, ⟨_, rfl⟩⟩
  · split
    · exact ⟨rfl, rfl, rfl, rfl, ⟨_, rfl⟩, ⟨_, rfl⟩⟩
    · exact ⟨rfl, rfl, rfl, rfl, ⟨_, rfl⟩, ⟨_, rfl⟩⟩

theorem hInv_hyp (M : Metrics) (cfg : TCfg) (width height : Rat) :
    RunHyp M cfg width height (fun r _ _ => HInv cfg height r) (HPost cfg height) where
  added := by intro r i k ws look ids w l' h _ _ _ _ _; exact ⟨h.sum, h.first, h.le⟩
  keep := by intro r i k ws look ids w l' res h _ _ _ _ _ _; exact ⟨h.sum, h.first, h.le⟩
  finOk := by
    intro r i k ws look ids w l' nl b h _ _ _ _ _ _ hh
    have := hInv_accept b h hh
    exact ⟨this.sum, this.first, this.le⟩
  finBad := by intro r i k ws look ids w l' nl h _ _ _ _ _ _; exact ⟨h.sum, h.le⟩
  part := by
    intro r i k ws look ids h _ _
    obtain ⟨e1, e2, e3, _⟩ := partStart_fields cfg look ids r
    exact ⟨by rw [e1, e2]; exact h.sum, by rw [e3, e2]; exact h.first, by rw [e1]; exact h.le⟩
  partEnd := by intro r i ws look ids h _ _; exact ⟨h.sum, h.first, h.le⟩
  skip := by intro r i h _ _; exact h
  brOk := by
    intro r i h _ _ hh
    have := hInv_accept (r := { r with pos := { r.pos with partAdded := i + 1, wordAdded := 0 } }) true ⟨h.sum, h.first, h.le⟩ hh
    exact ⟨this.sum, this.first, this.le⟩
  brBad := by intro r i h _ _ _; exact ⟨h.sum, h.le⟩

theorem textRun_height (M : Metrics) (cfg : TCfg) (width height : Rat) (pos : TPos)
    (hv : ValidPos cfg.content pos.lastPart pos.lastWord) : HPost cfg height (textRun M cfg width height pos) := by
  refine textRun_ind (hInv_hyp M cfg width height) pos hv.2 hv.1 ?_ (R := HPost cfg height) (fun r hr => hr) ?_ ?_
  · exact ⟨rfl, by simp [runInit], by simp [runInit]⟩
  · intro r hr _ hh
    have := hInv_accept true hr hh
    exact ⟨this.sum, this.le⟩
  · intro r hr _ _; exact ⟨hr.sum, hr.le⟩

/-- a state of a paragraph that was run in some rectangles and is not finished -/
def TReach (M : Metrics) (cfg : TCfg) (pos : TPos) : Prop :=
  ∃ rects, pos = (textRuns M cfg rects TPos.init).1 ∧ pos.finished = false

theorem TReach.post {M : Metrics} {cfg : TCfg} {pos : TPos} (h : TReach M cfg pos) : ∃ E, WPost cfg E pos := by
  obtain ⟨rects, rfl, hf⟩ := h
  have := textRuns_words M cfg rects [] TPos.init (wPost_init cfg)
  simp only [] at this
  rcases this with ⟨h, _⟩ | h
  · rw [hf] at h; cases h
  · exact ⟨_, h⟩

/-- **C22.** After a run the reported height is the sum of the heights of the lines placed, and it is at most
the height of the rectangle. -/
theorem C22_height (M : Metrics) (cfg : TCfg) (width height : Rat) (pos : TPos) (h : TReach M cfg pos) :
    (textRun M cfg width height pos).curHeight = linesHeight cfg.lineHeight (textRun M cfg width height pos).lines ∧
    (0 ≤ height → (textRun M cfg width height pos).curHeight ≤ height) := by
  obtain ⟨E, hp⟩ := h.post
  have := textRun_height M cfg width height pos hp.lastV
  exact ⟨this.1, fun h => this.2.trans_eq (max_eq_right h)⟩

/-! ## Termination -/

/-- the styles of the content -/
def contentLooks (c : List TItem) : List TLook := c.filterMap fun
  | .text _ look _ => some look
  | _ => none

/-- the number of steps an element takes -/
def itemSize : TItem → Nat
  | .text ws _ _ => ws.length + 1
  | _ => 1

/-- how far a position is -/
def rank (c : List TItem) (i k : Nat) : Nat := ((c.take i).map itemSize).sum + k

theorem rank_succ {c : List TItem} {i : Nat} {x : TItem} (h : c[i]? = some x) : rank c (i + 1) 0 = rank c i 0 + itemSize x := by
  obtain ⟨hi, hx⟩ := List.getElem?_eq_some_iff.mp h
  unfold rank
  rw [List.take_succ_eq_append_getElem hi, hx]
  simp

theorem rank_add (c : List TItem) (i k : Nat) : rank c i k = rank c i 0 + k := by simp [rank]

theorem rank_le (c : List TItem) (i k : Nat) (h : ValidPos c i k) : rank c i k ≤ (c.map itemSize).sum := by
  obtain ⟨h1, h2⟩ := h
  have hs : (c.map itemSize).sum = ((c.take i).map itemSize).sum + ((c.drop i).map itemSize).sum := by
    rw [← List.sum_append, ← List.map_append, List.take_append_drop]
  rw [hs]
  unfold rank
  have : k ≤ ((c.drop i).map itemSize).sum := by
    cases hd : c.drop i with
    | nil => rw [hd] at h2; simp only [wordAt] at h2; omega
    | cons x l =>
      rw [hd] at h2
      cases x with
      | text ws look ids => simp only [wordAt] at h2; simp only [List.map_cons, List.sum_cons, itemSize]; omega
      | br => simp only [wordAt] at h2; omega
      | skip => simp only [wordAt] at h2; omega
  omega

theorem foldr_max_le (l : List Rat) (b : Rat) (h0 : 0 ≤ b) (h : ∀ x ∈ l, x ≤ b) : l.foldr max 0 ≤ b := by
  induction l with
  | nil => simpa using h0
  | cons a l ih =>
    simp only [List.foldr_cons]
    exact max_le (h a (by simp)) (ih (fun x hx => h x (by simp [hx])))

/-- what is known during a run that started at rank `s0` -/
structure SInv (cfg : TCfg) (s0 : Nat) (r : RunSt) (i k : Nat) : Prop where
  ge : s0 ≤ rank cfg.content i k
  added : r.cur.started = true → s0 < rank cfg.content r.pos.partAdded r.pos.wordAdded
  line : r.lines ≠ [] → s0 < rank cfg.content r.pos.partLine r.pos.wordLine
  lk : ∀ x ∈ looks r.cur.parts ++ looks r.cur.next, x ∈ contentLooks cfg.content
  top : r.lines = [] → r.cur.topMargin = cfg.lineHeight ∧ r.firstLineAdded = false ∧ r.curHeight = 0

/-- sizes and rises are bounded, and the bounds fit the rectangle -/
def TallEnough (cfg : TCfg) (height : Rat) : Prop :=
  ∃ S R : Rat, 0 ≤ S ∧ 0 ≤ R ∧ (∀ x ∈ contentLooks cfg.content, x.st.size ≤ S ∧ x.st.rise ≤ R) ∧
    S + R + cfg.lineHeight ≤ height

theorem first_fits {cfg : TCfg} {height : Rat} (ht : TallEnough cfg height) {r : RunSt} {l : TLine}
    (h1 : l.topMargin = cfg.lineHeight) (h2 : r.firstLineAdded = false) (h3 : r.curHeight = 0)
    (hl : ∀ x ∈ looks l.parts, x ∈ contentLooks cfg.content) : ¬ (lineH cfg r l + r.curHeight > height) := by
  obtain ⟨S, R, hS, hR, hb, hle⟩ := ht
  have e : lineH cfg r l = lineHeightOf l := by simp [lineH, h2, height_eq]
  rw [e, h3]
  have a1 : (l.parts.map fun p => p.look.st.size).foldr max 0 ≤ S := by
    refine foldr_max_le _ _ hS ?_
    intro x hx
    obtain ⟨p, hp, rfl⟩ := List.mem_map.mp hx
    exact (hb _ (hl _ (List.mem_map_of_mem hp))).1
  have a2 : (l.parts.map fun p => p.look.st.rise).foldr max 0 ≤ R := by
    refine foldr_max_le _ _ hR ?_
    intro x hx
    obtain ⟨p, hp, rfl⟩ := List.mem_map.mp hx
    exact (hb _ (hl _ (List.mem_map_of_mem hp))).2
  unfold lineHeightOf
  rw [h1]
  intro hc
  linarith

theorem contentLooks_mem {c : List TItem} {i : Nat} {ws : List Str} {look : TLook} {ids : Option (List Str)}
    (h : c[i]? = some (.text ws look ids)) : look ∈ contentLooks c := by
  obtain ⟨hi, hx⟩ := List.getElem?_eq_some_iff.mp h
  unfold contentLooks
  rw [List.mem_filterMap]
  exact ⟨_, List.mem_of_getElem hx, rfl⟩

theorem sInv_hyp (M : Metrics) (cfg : TCfg) (width height : Rat) (s0 : Nat) (ht : TallEnough cfg height) :
    RunHyp M cfg width height (SInv cfg s0) (fun r => s0 < rank cfg.content r.pos.lastPart r.pos.lastWord) where
  added := by
    intro r i k ws look ids w l' h wf hl hc hw hcase
    have hge : s0 < rank cfg.content i (k + 1) := by
      have := h.ge
      rw [rank_add] at this ⊢; omega
    cases hcase with
    | first _ hsp hs hs' hp hn hm' wf' hl' hlk =>
      exact ⟨le_of_lt hge, fun _ => hge, h.line, fun x hx => h.lk x (hlk x hx), fun hh => ⟨by rw [hm'.2.2]; exact (h.top hh).1, (h.top hh).2⟩⟩
    | accum _ hsp hcc hs' hp hn hm' wf' hl' hlk =>
      exact ⟨le_of_lt hge, fun _ => hge, h.line, fun x hx => h.lk x (hlk x hx), fun hh => ⟨by rw [hm'.2.2]; exact (h.top hh).1, (h.top hh).2⟩⟩
  keep := by
    intro r i k ws look ids w l' res h wf hl hc hw hcase hres
    have hge : s0 ≤ rank cfg.content i (k + 1) := by
      have := h.ge
      rw [rank_add] at this ⊢; omega
    cases hcase with
    | first => rcases hres with h | h <;> cases h
    | accum => rcases hres with h | h <;> cases h
    | finished => rcases hres with h | h <;> cases h
    | ignored hsp hcc => exact ⟨hge, h.added, h.line, h.lk, h.top⟩
    | preadded _ hsp hs hs' hp hn hm' hfit wf' hl' hlk =>
      exact ⟨hge, fun _ => h.added hs, h.line, fun x hx => h.lk x (hlk x hx), fun hh => ⟨by rw [hm'.2.2]; exact (h.top hh).1, (h.top hh).2⟩⟩
  finOk := by
    intro r i k ws look ids w l' nl b h wf hl hc hw hcase _ hh
    have hge : s0 ≤ rank cfg.content i (k + 1) := by
      have := h.ge
      rw [rank_add] at this ⊢; omega
    cases hcase with
    | finished _ _ hsp hs hp hn hm' hok hlast ns nf np na nt nn wf' hl' hlk =>
      refine ⟨hge, ?_, fun _ => h.added hs, ?_, ?_⟩
      · intro hst; simp only [ns] at hst; cases hst
      · intro x hx
        simp only [np, looks, List.map_nil, List.nil_append] at hx
        exact h.lk x (hlk x (by simp only [looks, List.mem_append]; exact Or.inr hx))
      · intro hh; simp [accept] at hh
  finBad := by
    intro r i k ws look ids w l' nl h wf hl hc hw hcase hh
    cases hcase with
    | finished _ _ hsp hs hp hn hm' hok hlast ns nf np na nt nn wf' hl' hlk =>
      have hne : r.lines ≠ [] := by
        intro h0
        obtain ⟨t1, t2, t3⟩ := h.top h0
        refine first_fits ht (by rw [hm'.2.2]; exact t1) t2 t3 ?_ hh
        intro x hx
        exact h.lk x (hlk x (by simp [hx]))
      exact h.line hne
  part := by
    intro r i k ws look ids h wf hc
    obtain ⟨e1, e2, e3, e4, ⟨b, e5⟩, ⟨w, e6⟩⟩ := partStart_fields cfg look ids r
    refine ⟨h.ge, ?_, ?_, ?_, ?_⟩
    · rw [e5, e6]; exact h.added
    · rw [e2, e5]; exact h.line
    · rw [e6]
      intro x hx
      simp only [TLine.addLinePart, looks, List.map_append, List.map_cons, List.map_nil, List.mem_append, List.mem_singleton,
        TPart.new] at hx
      rcases hx with hx | hx | hx
      · exact h.lk x (by simp only [looks, List.mem_append]; exact Or.inl hx)
      · exact h.lk x (by simp only [looks, List.mem_append]; exact Or.inr hx)
      · rw [hx]; exact contentLooks_mem hc
    · rw [e2, e6, e3, e1]; exact h.top
  partEnd := by
    intro r i ws look ids h wf hc
    refine ⟨?_, h.added, h.line, h.lk, h.top⟩
    rw [rank_succ hc]
    have := h.ge
    rw [rank_add] at this
    simp only [itemSize]; omega
  skip := by
    intro r i h wf hc
    refine ⟨?_, h.added, h.line, h.lk, h.top⟩
    rw [rank_succ hc]
    have := h.ge
    omega
  brOk := by
    intro r i h wf hc hh
    have hge : s0 < rank cfg.content (i + 1) 0 := by
      rw [rank_succ hc]
      have := h.ge
      simp only [itemSize]; omega
    refine ⟨le_of_lt hge, fun _ => hge, fun _ => hge, ?_, ?_⟩
    · intro x hx; simp [TLine.new, looks] at hx
    · intro hh; simp [accept] at hh
  brBad := by
    intro r i h wf hc hh
    have hne : r.lines ≠ [] := by
      intro h0
      obtain ⟨t1, t2, t3⟩ := h.top h0
      refine first_fits ht (l := closeLine true r.cur) (by simpa [closeLine] using t1) t2 t3 ?_ hh
      intro x hx
      exact h.lk x (by simpa [closeLine, looks] using hx)
    exact h.line hne

/-- a run in a tall enough rectangle finishes the paragraph, or it gets further -/
theorem textRun_progress (M : Metrics) (cfg : TCfg) (width height : Rat) (ht : TallEnough cfg height) (pos : TPos)
    (hv : ValidPos cfg.content pos.lastPart pos.lastWord) :
    (textRun M cfg width height pos).pos.finished = true ∨
    rank cfg.content pos.lastPart pos.lastWord <
      rank cfg.content (textRun M cfg width height pos).pos.lastPart (textRun M cfg width height pos).pos.lastWord := by
  refine textRun_ind (sInv_hyp M cfg width height (rank cfg.content pos.lastPart pos.lastWord) ht) pos hv.2 hv.1 ?_
    (R := fun r => r.pos.finished = true ∨ rank cfg.content pos.lastPart pos.lastWord < rank cfg.content r.pos.lastPart r.pos.lastWord)
    (fun r hr => Or.inr hr) ?_ ?_
  · refine ⟨le_refl _, ?_, ?_, ?_, ?_⟩
    · intro hst; simp [runInit, TLine.new] at hst
    · intro h; simp [runInit] at h
    · intro x hx; simp [runInit, TLine.new, looks] at hx
    · intro _; exact ⟨rfl, rfl, rfl⟩
  · intro r hr _ hh; left; rfl
  · intro r hr wf hh
    right
    have hne : r.lines ≠ [] := by
      intro h0
      obtain ⟨t1, t2, t3⟩ := hr.top h0
      refine first_fits ht (l := closeLine true r.cur) (by simpa [closeLine] using t1) t2 t3 ?_ hh
      intro x hx
      exact hr.lk x (by simpa [closeLine, looks] using hx)
    exact hr.line hne

theorem textRuns_progress (M : Metrics) (cfg : TCfg) : ∀ (rects : List (Rat × Rat)) (E : List (WTok Piece)) (pos : TPos),
    WPost cfg E pos → (∀ x ∈ rects, TallEnough cfg x.2) →
    (textRuns M cfg rects pos).1.finished = true ∨
    rank cfg.content pos.lastPart pos.lastWord + rects.length ≤
      rank cfg.content (textRuns M cfg rects pos).1.lastPart (textRuns M cfg rects pos).1.lastWord := by
  intro rects
  induction rects with
  | nil => intro E pos h _; right; simp [textRuns]
  | cons x l ih =>
    intro E pos h ht
    obtain ⟨w, hh⟩ := x
    have hne : ¬ pos.finished = true := by rw [h.fin]; simp
    simp only [textRuns, if_neg hne]
    have hp := textRun_progress M cfg w hh (ht (w, hh) (by simp)) pos h.lastV
    have hrun := textRun_words M cfg w hh E pos h
    simp only [] at hrun
    rcases hrun with ⟨hf, hr⟩ | hr
    · have e : textRuns M cfg l (textRun M cfg w hh pos).pos = ((textRun M cfg w hh pos).pos, []) := by
        cases l with
        | nil => rfl
        | cons y l => obtain ⟨a, b⟩ := y; simp [textRuns, hf]
      rw [e]; exact Or.inl hf
    · rcases hp with hp | hp
      · rw [hr.fin] at hp; cases hp
      · rcases ih _ _ hr (fun y hy => ht y (by simp [hy])) with h1 | h1
        · exact Or.inl h1
        · right; simp only [List.length_cons]; omega

/-- **C23, partial: when every line fits a page.** `PDF.text` (pdf.py:679-701) runs the paragraph in what is
left of the current page and then in new pages. If the content boxes of the new pages are at least as high as
the highest font, rise and margin of a line, the paragraph is finished after at most as many pages as it has
words and parts. -/
theorem C23_finishes_partial (M : Metrics) (cfg : TCfg) (first : Rat × Rat) (pages : List (Rat × Rat))
    (htall : ∀ p ∈ pages, TallEnough cfg p.2) (hlen : (cfg.content.map itemSize).sum < pages.length) :
    (textRuns M cfg (first :: pages) TPos.init).1.finished = true := by
  obtain ⟨w, h⟩ := first
  have hrun := textRun_words M cfg w h [] TPos.init (wPost_init cfg)
  have hall := textRuns_words M cfg ((w, h) :: pages) [] TPos.init (wPost_init cfg)
  simp only [] at hall
  rcases hall with ⟨hf, _⟩ | hall
  · exact hf
  · exfalso
    have hne : ¬ TPos.init.finished = true := by decide
    have hfin := hall.fin
    have hv := hall.lastV
    simp only [textRuns, if_neg hne] at hfin hv
    simp only [] at hrun
    rcases hrun with ⟨hf, hr⟩ | hr
    · have e : textRuns M cfg pages (textRun M cfg w h TPos.init).pos = ((textRun M cfg w h TPos.init).pos, []) := by
        cases pages with
        | nil => rfl
        | cons y l => obtain ⟨a, b⟩ := y; simp [textRuns, hf]
      rw [e, hf] at hfin; cases hfin
    · rcases textRuns_progress M cfg pages _ _ hr htall with h1 | h1
      · rw [h1] at hfin; cases hfin
      · have := rank_le _ _ _ hv
        omega

section Example
private def ex2St (size : Rat) : PState := ⟨c!"Helvetica", c!"n", c!"F1", size, ⟨none, false⟩, 2⟩
private def ex2Look (size : Rat) : TLook := ⟨ex2St size, false, ⟨none, false⟩, none⟩
private def ex2M : Metrics := fun _ _ _ => 1 / 2
private def ex2Cfg : TCfg :=
  ⟨[.text (splitWords c!"one two") (ex2Look 10) none, .br, .text (splitWords c!"three four") (ex2Look 20) none],
    5, c!"l", 11 / 10, none⟩

example : (textRun ex2M ex2Cfg 60 60 TPos.init).curHeight = (10 + 2 + 11 / 10) + (20 + 2 + 11 / 10) * (11 / 10) ∧
    (textRun ex2M ex2Cfg 60 60 TPos.init).lines.length = 2 ∧ (textRun ex2M ex2Cfg 60 60 TPos.init).pos.finished = false := by
  decide +kernel

example : TallEnough ex2Cfg 24 := by
  refine ⟨20, 2, by norm_num, by norm_num, ?_, by norm_num [ex2Cfg]⟩
  have : ∀ x ∈ contentLooks ex2Cfg.content, x = ex2Look 10 ∨ x = ex2Look 20 := by
    intro x hx
    have : contentLooks ex2Cfg.content = [ex2Look 10, ex2Look 20] := by decide +kernel
    rw [this] at hx
    simpa using hx
  intro x hx
  rcases this x hx with rfl | rfl <;> constructor <;> norm_num [ex2Look, ex2St]
end Example

/-- **C23 is false for a line higher than the page**: the first line never fits, and `PDF.text` adds pages
for ever. -/
theorem C23_high_line_false :
    ∃ (cfg : TCfg), ∀ (M : Metrics) (pages : List (Rat × Rat)), (∀ p ∈ pages, p.2 < 20) →
      (textRuns M cfg pages TPos.init).1.finished = false ∧ (textRuns M cfg pages TPos.init).2 = pages.map fun _ => [] := by
  refine ⟨⟨[.text [c!"a"] ⟨⟨c!"Helvetica", c!"n", c!"F1", 20, ⟨none, false⟩, 0⟩, false, ⟨none, false⟩, none⟩ none], 0, c!"l", 1, none⟩, ?_⟩
  intro M pages
  have key : ∀ (pos : TPos), pos.lastPart = 0 → pos.lastWord = 0 → pos.partLine = 0 → pos.wordLine = 0 → pos.finished = false →
      ∀ pages : List (Rat × Rat), (∀ p ∈ pages, p.2 < 20) →
      (textRuns M ⟨[.text [c!"a"] ⟨⟨c!"Helvetica", c!"n", c!"F1", 20, ⟨none, false⟩, 0⟩, false, ⟨none, false⟩, none⟩ none], 0, c!"l", 1, none⟩ pages pos).1.finished = false ∧
      (textRuns M ⟨[.text [c!"a"] ⟨⟨c!"Helvetica", c!"n", c!"F1", 20, ⟨none, false⟩, 0⟩, false, ⟨none, false⟩, none⟩ none], 0, c!"l", 1, none⟩ pages pos).2 = pages.map fun _ => [] := by
    intro pos h1 h2 h3 h4 h5 pages
    induction pages generalizing pos with
    | nil => intro _; simp [textRuns, h5]
    | cons p l ih =>
      intro hp
      obtain ⟨w, h⟩ := p
      have hh : h < 20 := hp (w, h) (by simp)
      obtain ⟨a1, a2, a3, a4, a5, a6, a7, a8, a9⟩ := pos
      simp only at h1 h2 h3 h4 h5
      subst h1 h2 h3 h4 h5
      have hw : strIsSpace c!"a" = false := by decide
      have hlt : h < 20 + 1 := by linarith
      have hrun : textRun M ⟨[.text [c!"a"] ⟨⟨c!"Helvetica", c!"n", c!"F1", 20, ⟨none, false⟩, 0⟩, false, ⟨none, false⟩, none⟩ none], 0, c!"l", 1, none⟩ w h
          ⟨0, 0, a3, a4, 0, 0, false, a8, a9⟩ = 
          { (textRun M ⟨[.text [c!"a"] ⟨⟨c!"Helvetica", c!"n", c!"F1", 20, ⟨none, false⟩, 0⟩, false, ⟨none, false⟩, none⟩ none], 0, c!"l", 1, none⟩ w h ⟨0, 0, a3, a4, 0, 0, false, a8, a9⟩) with
            lines := [], pos := ⟨0, 0, 0, 1, 0, 0, false, a8, a9⟩ } := by
        simp [textRun, partLoop, addPart, wordLoop, setupList, TLine.addLinePart, runInit, TLine.new, TLine.addWord, hw, onLast,
          addCurrentLine, TLine.height, heightLoop, TPart.addWord, TPart.new, hlt]
      simp only [textRuns, Bool.false_eq_true, if_false]
      rw [hrun]
      have := ih ⟨0, 0, 0, 1, 0, 0, false, a8, a9⟩ rfl rfl rfl rfl rfl (fun q hq => hp q (by simp [hq]))
      simp only [List.map_cons]
      exact ⟨this.1, by rw [this.2]⟩
  exact key TPos.init rfl rfl rfl rfl rfl pages

end Verif
