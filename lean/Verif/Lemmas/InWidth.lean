import Verif.Spec.InWidth
import Verif.Props.C67_TextMarks
/-! The words of a line are inside of its width. -/
namespace Verif
open Spec

theorem placed_mem {α : Type} {width : α → Rat} {q : α × Rat} : ∀ {l : List α} {x : Rat}, q ∈ placedWords width x l →
    ∃ pre post, l = pre ++ q.1 :: post ∧ q.2 = x + (pre.map width).sum := by
  intro l
  induction l with
  | nil => intro x h; cases h
  | cons a l ih =>
    intro x h
    rcases List.mem_cons.1 h with rfl | h
    · exact ⟨[], l, rfl, by simp⟩
    · obtain ⟨pre, post, h1, h2⟩ := ih h
      exact ⟨a :: pre, post, by rw [h1]; rfl, by rw [h2]; simp; ring⟩

/-- the piece of a word -/
def wordPiece (q : TPart × Str) : Piece := (q.2, q.1.look, q.1.ids)

theorem lineWords_pieces (l : TLine) : pieces l.parts = (lineWords l).map wordPiece := by
  unfold pieces lineWords TPart.pieces
  rw [List.map_flatMap]
  congr 1
  funext p
  rw [List.map_map]
  rfl

/-- a word whose blanks have the factor `f` -/
def wordExact (M : Metrics) (f : Rat) (q : TPart × Str) : Rat := if strIsSpace q.2 then f * wordNatural M q else wordNatural M q

theorem textWidth_words (M : Metrics) (f : Rat) (l : List (TPart × Str)) : textWidth M f (l.map wordPiece) = (l.map (wordExact M f)).sum := by
  unfold textWidth
  rw [List.map_map]
  rfl

theorem partsWidths_eq (M : Metrics) (f : Rat) (l : TLine) (hok : ∀ p ∈ l.parts, p.Ok M) (hb : ∀ t ∈ pieces l.parts, strIsSpace t.1 = true → t.1 = c!" ") :
    (partsWidths l.parts).1 + (partsWidths l.parts).2 * f = ((lineWords l).map (wordExact M f)).sum := by
  rw [← textWidth_words, ← lineWords_pieces]
  generalize l.parts = ps at *
  induction ps with
  | nil => simp [partsWidths, textWidth]
  | cons p ps ih =>
    have ih' := ih (fun q hq => hok q (by simp [hq])) (fun t ht => hb t (by simp [ht]))
    have hp := partWidth_eq M f p (hok p (by simp)) (fun t ht => hb t (by simp [ht]))
    rw [pieces_cons, textWidth_append, ← ih', ← hp]
    simp [partsWidths]
    ring

/-- the words up to the last one that is not blank, and the blanks at the end -/
theorem split_end {α : Type} (b : α → Bool) (l : List α) : ∃ vis tail, l = vis ++ tail ∧ tail = (l.reverse.takeWhile b).reverse ∧ vis = (l.reverse.dropWhile b).reverse ∧
    (∀ q ∈ tail, b q = true) := by
  refine ⟨_, _, ?_, rfl, rfl, ?_⟩
  · rw [← List.reverse_append, List.takeWhile_append_dropWhile, List.reverse_reverse]
  · intro q hq
    have := List.all_takeWhile (p := b) (l := l.reverse)
    exact List.all_eq_true.1 this q (List.mem_reverse.1 hq)

theorem prefix_vis {α : Type} {b : α → Bool} {vis tail pre post : List α} {q : α} (h : vis ++ tail = pre ++ q :: post) (ht : ∀ q ∈ tail, b q = true) (hq : b q = false) :
    ∃ rest, vis = pre ++ q :: rest := by
  rcases List.append_eq_append_iff.1 h with ⟨a, h1, h2⟩ | ⟨a, h1, h2⟩
  · exfalso
    have : q ∈ tail := by rw [h2]; simp
    rw [ht q this] at hq
    cases hq
  · cases a with
    | nil =>
      exfalso
      rw [List.nil_append] at h2
      have : q ∈ tail := by rw [← h2]; simp
      rw [ht q this] at hq
      cases hq
    | cons c a =>
      rw [List.cons_append, List.cons.injEq] at h2
      exact ⟨a, by rw [h1, h2.1]⟩

theorem seen_not_blank {w : Str} (h : seenWord w = true) : strIsSpace w = false := by
  unfold seenWord at h
  unfold strIsSpace
  obtain ⟨c, hc, hn⟩ := List.any_eq_true.1 h
  rw [Bool.and_eq_false_iff]
  right
  rw [List.all_eq_false]
  exact ⟨c, hc, by simpa using hn⟩

section
variable {M : Metrics}

theorem natural_nonneg (hM : ∀ f m c, 0 ≤ M f m c) {q : TPart × Str} (hq : 0 ≤ q.1.look.st.size) : 0 ≤ wordNatural M q := by
  unfold wordNatural
  refine mul_nonneg hq (List.sum_nonneg ?_)
  intro x hx
  obtain ⟨c, -, rfl⟩ := List.mem_map.1 hx
  exact hM _ _ _

theorem exact_nonneg (hM : ∀ f m c, 0 ≤ M f m c) {f : Rat} (hf : 0 ≤ f) {q : TPart × Str} (hq : 0 ≤ q.1.look.st.size) : 0 ≤ wordExact M f q := by
  unfold wordExact
  split
  · exact mul_nonneg hf (natural_nonneg hM hq)
  · exact natural_nonneg hM hq

theorem sum_exact_nonneg (hM : ∀ f m c, 0 ≤ M f m c) {f : Rat} (hf : 0 ≤ f) {l : List (TPart × Str)} (hl : ∀ q ∈ l, 0 ≤ q.1.look.st.size) : 0 ≤ (l.map (wordExact M f)).sum := by
  refine List.sum_nonneg ?_
  intro x hx
  obtain ⟨q, hq, rfl⟩ := List.mem_map.1 hx
  exact exact_nonneg hM hf (hl q hq)

/-- the width of words is linear in the factor of the blanks -/
theorem sum_exact (f : Rat) (l : List (TPart × Str)) :
    (l.map (wordExact M f)).sum = (l.map (wordExact M 0)).sum + f * ((l.filter fun q => strIsSpace q.2).map (wordNatural M)).sum := by
  induction l with
  | nil => simp
  | cons q l ih =>
    rw [List.map_cons, List.sum_cons, ih, List.map_cons, List.sum_cons]
    by_cases h : strIsSpace q.2 = true
    · rw [List.filter_cons_of_pos (by simpa using h), List.map_cons, List.sum_cons]
      simp only [wordExact, h, if_true]
      ring
    · rw [List.filter_cons_of_neg (by simpa using h)]
      simp only [wordExact, h, if_false, Bool.false_eq_true]
      ring

/-- the words of a line are shown as wide as they should be, up to the rounding of the word spacing -/
theorem shown_close {tw : TPart → Rat} {ε f : Rat} (hε : 0 ≤ ε) (htw : ∀ p, |tw p - p.spaceWidth M * (f - 1)| ≤ ε) : ∀ {l : List (TPart × Str)},
    (∀ q ∈ l, (strIsSpace q.2 = true → q.2 = c!" ") ∧ (q.2 = c!" " ∨ ' ' ∉ q.2) ∧ (q.1.look.enc = none ∨ f = 1)) →
    |(l.map (wordShown M tw)).sum - (l.map (wordExact M f)).sum| ≤ ((l.map fun q => q.2.count ' ').sum : Nat) * ε := by
  intro l
  induction l with
  | nil => intro _; simp
  | cons q l ih =>
    intro h
    have ih := ih fun q hq => h q (by simp [hq])
    obtain ⟨h1, h2, h3⟩ := h q (by simp)
    have key : |wordShown M tw q - wordExact M f q| ≤ (q.2.count ' ' : Nat) * ε := by
      by_cases hs : strIsSpace q.2 = true
      · have e := h1 hs
        have hsp : wordNatural M q = q.1.spaceWidth M := by
          unfold wordNatural TPart.spaceWidth wordWidth
          rw [e]
        have hc : q.2.count ' ' = 1 := by rw [e]; rfl
        unfold wordShown wordExact
        rw [if_pos hs, hsp, hc]
        by_cases henc : q.1.look.enc = none
        · rw [if_pos henc]
          have := htw q.1
          push_cast
          rw [show q.1.spaceWidth M + 1 * tw q.1 - f * q.1.spaceWidth M = tw q.1 - q.1.spaceWidth M * (f - 1) by ring, one_mul]
          exact this
        · rw [if_neg henc, h3.resolve_left henc]
          simpa using hε
      · have hne : ' ' ∉ q.2 := by
          rcases h2 with e | e
          · exfalso
            apply hs
            rw [e]
            exact blank_isSpace
          · exact e
        have hc : q.2.count ' ' = 0 := List.count_eq_zero.2 hne
        unfold wordShown wordExact
        rw [if_neg hs, hc]
        simp
    rw [List.map_cons, List.map_cons, List.map_cons, List.sum_cons, List.sum_cons, List.sum_cons,
      show wordShown M tw q + (l.map (wordShown M tw)).sum - (wordExact M f q + (l.map (wordExact M f)).sum) =
        (wordShown M tw q - wordExact M f q) + ((l.map (wordShown M tw)).sum - (l.map (wordExact M f)).sum) by ring]
    refine le_trans (abs_add_le _ _) (le_trans (add_le_add key ih) (le_of_eq ?_))
    push_cast
    ring

theorem lineBlanks_eq (l : TLine) : lineBlanks l = ((lineWords l).map fun q => q.2.count ' ').sum := by
  unfold lineBlanks lineWords
  generalize l.parts = ps
  induction ps with
  | nil => rfl
  | cons p ps ih =>
    rw [List.map_cons, List.sum_cons, ih, List.flatMap_cons, List.map_append, List.sum_append]
    congr 1
    rw [List.map_map]
    generalize p.words = ws
    induction ws with
    | nil => rfl
    | cons w ws ih => rw [List.flatten_cons, List.count_append, ih]; simp

/-- the same word in another form -/
def mapTok {α β : Type} (g : α → β) : WTok α → WTok β
  | .sep => .sep
  | .word q => .word (g q)

theorem fold_mapTok {α β : Type} (g : α → β) : ∀ (l : List (WTok α)) (st : List (List α) × List α), (l.map (mapTok g)).foldl wordStep (st.1.map (List.map g), st.2.map g) =
    ((l.foldl wordStep st).1.map (List.map g), (l.foldl wordStep st).2.map g) := by
  intro l
  induction l with
  | nil => intro st; rfl
  | cons a l ih =>
    intro st
    rw [List.map_cons, List.foldl_cons, List.foldl_cons, ← ih]
    congr 1
    cases a with
    | sep =>
      simp only [mapTok, wordStep]
      by_cases h : st.2 = []
      · simp [h]
      · simp [h]
    | word q => simp [mapTok, wordStep]

theorem words_tok {α β : Type} (g : α → β) (b : α → Bool) (l : List α) :
    (wordsOf (l.map fun q => if b q then WTok.sep else WTok.word (g q))).length = (wordsOf (l.map fun q => if b q then WTok.sep else WTok.word q)).length := by
  have k2 := fold_mapTok g ((l.map fun q => if b q then WTok.sep else WTok.word q) ++ [.sep]) ([], [])
  have e : (l.map fun q => if b q then WTok.sep else WTok.word (g q)) ++ [WTok.sep] =
      ((l.map fun q => if b q then WTok.sep else WTok.word q) ++ [WTok.sep]).map (mapTok g) := by
    rw [List.map_append, List.map_map]
    congr 1
    refine List.map_congr_left fun q _ => ?_
    by_cases h : b q = true <;> simp [h, mapTok]
  unfold wordsOf wordState
  rw [e]
  simp only [List.map_nil] at k2
  rw [k2, List.length_map]

/-- a line of a run -/
theorem line_within (hM : ∀ f m c, 0 ≤ M f m c) {cfg : TCfg} (hlist : cfg.list = none) (hmv : cfg.moved = true → cfg.indent = 0) (hind : 0 ≤ cfg.indent) {width : Rat} {first : Bool} {j : Nat}
    {l : TLine × Bool} (hok : ∀ p ∈ l.1.parts, p.Ok M) (hparts : ∀ p ∈ l.1.parts, (∀ w ∈ p.words, w = c!" " ∨ ' ' ∉ w) ∧ (cfg.align = c!"j" → p.look.enc = none))
    (hfit : Fits M (minFactor cfg.align) (pieces l.1.parts) (availW cfg width first j)) (hb : ∀ t ∈ pieces l.1.parts, strIsSpace t.1 = true → t.1 = c!" ")
    {ε : Rat} (hε : 0 ≤ ε) {x : Rat} (hx : |startAt cfg width first j l.1 - x| ≤ ((j : Rat) + 1) * ε) {tw : TPart → Rat}
    (htw : ∀ p, |tw p - p.spaceWidth M * (factorAt cfg width first j l - 1)| ≤ ε) (hsz : ∀ p ∈ l.1.parts, 0 ≤ p.look.st.size) : oneWord l.1 ∨
    ∀ q ∈ placedWords (wordShown M tw) x (lineWords l.1), seenWord q.1.2 = true →
      0 - leftOver M cfg.align l.1 - ((j : Rat) + 1 + lineBlanks l.1) * ε ≤ q.2 ∧
      q.2 + wordShown M tw q.1 ≤ width + rightOver M cfg.align l.2 l.1 + ((j : Rat) + 1 + lineBlanks l.1) * ε := by
  rcases hfit with hfit | hone
  swap
  · left
    unfold oneWord
    rw [lineWords_pieces, List.map_map] at hone
    have := words_tok wordPiece (fun q : TPart × Str => strIsSpace q.2) (lineWords l.1)
    rw [← this]
    exact hone
  right
  intro q hq hseen
  obtain ⟨pre, post, e1, e2⟩ := placed_mem hq
  have hnb := seen_not_blank hseen
  have hmem : ∀ q ∈ lineWords l.1, q.1 ∈ l.1.parts ∧ q.2 ∈ q.1.words := by
    intro q hq
    obtain ⟨p, hp, hq⟩ := List.mem_flatMap.1 hq
    obtain ⟨w, hw, rfl⟩ := List.mem_map.1 hq
    exact ⟨hp, hw⟩
  have hpc : ∀ q ∈ lineWords l.1, strIsSpace q.2 = true → q.2 = c!" " := by
    intro q hq hs
    exact hb (wordPiece q) (by rw [lineWords_pieces]; exact List.mem_map_of_mem hq) hs
  obtain ⟨vis, tail, s1, s2, s3, s4⟩ := split_end (fun q : TPart × Str => strIsSpace q.2) (lineWords l.1)
  obtain ⟨rest, e3⟩ := prefix_vis (b := fun q : TPart × Str => strIsSpace q.2) (s1.symm.trans e1) s4 hnb
  have hszw : ∀ q ∈ lineWords l.1, 0 ≤ q.1.look.st.size := fun q hq => hsz q.1 (hmem q hq).1
  have hszv : ∀ q ∈ vis, 0 ≤ q.1.look.st.size := fun q hq => hszw q (by rw [s1]; exact List.mem_append_left _ hq)
  have hszt : ∀ q ∈ tail, 0 ≤ q.1.look.st.size := fun q hq => hszw q (by rw [s1]; exact List.mem_append_right _ hq)
  -- the width of the visible words, of the blanks between them and at the end
  set W := (vis.map (wordExact M 0)).sum with hW
  set I := ((vis.filter fun q => strIsSpace q.2).map (wordNatural M)).sum with hI
  set t := (tail.map (wordNatural M)).sum with ht
  have hIn : 0 ≤ I := by
    refine List.sum_nonneg fun x hx => ?_
    obtain ⟨q, hq, rfl⟩ := List.mem_map.1 hx
    exact natural_nonneg hM (hszv q (List.mem_of_mem_filter hq))
  have htn : 0 ≤ t := by
    refine List.sum_nonneg fun x hx => ?_
    obtain ⟨q, hq, rfl⟩ := List.mem_map.1 hx
    exact natural_nonneg hM (hszt q hq)
  have hWn : 0 ≤ W := sum_exact_nonneg hM (le_refl 0) hszv
  have hvis : ∀ f, (vis.map (wordExact M f)).sum = W + f * I := fun f => sum_exact f vis
  have htail : ∀ f, (tail.map (wordExact M f)).sum = f * t := by
    intro f
    have : ∀ q ∈ tail, wordExact M f q = f * wordNatural M q := fun q hq => by unfold wordExact; rw [if_pos (s4 q hq)]
    rw [List.map_congr_left this, ht]
    clear_value t
    clear * -
    induction tail with
    | nil => simp
    | cons q tail ih => simp [ih, mul_add]
  have hall : ∀ f, (partsWidths l.1.parts).1 + (partsWidths l.1.parts).2 * f = W + f * I + f * t := by
    intro f
    rw [partsWidths_eq M f l.1 hok hb, s1, List.map_append, List.sum_append, hvis, htail]
  have hP1 : (partsWidths l.1.parts).1 = W := by have := hall 0; linarith
  have hP2 : (partsWidths l.1.parts).2 = I + t := by have := hall 1; linarith
  have hend : endBlankWidth M l.1 = t := by
    unfold endBlankWidth
    rw [ht, s2, List.map_reverse, List.sum_reverse]
  have hblank : blankWidth M l.1 = I + t := by
    unfold blankWidth
    rw [s1, List.filter_append, List.map_append, List.sum_append, List.filter_eq_self.2 s4]
  have hfit' : W + minFactor cfg.align * I < availW cfg width first j := by
    have e : trimEnd (pieces l.1.parts) = vis.map wordPiece := by
      unfold trimEnd
      rw [lineWords_pieces, s3, ← List.map_reverse, List.dropWhile_map, List.map_reverse]
      rfl
    rw [e, textWidth_words, hvis] at hfit
    exact hfit
  set f := factorAt cfg width first j l with hf
  have hind' : availW cfg width first j = width - if first = true ∧ j = 0 then cfg.indent else 0 := rfl
  have hli : cfg.listIndent = 0 := by unfold TCfg.listIndent; rw [hlist]
  set ind : Rat := if first = true ∧ j = 0 then cfg.indent else 0 with hindd
  have hindn : 0 ≤ ind := by rw [hindd]; split <;> first | exact hind | exact le_refl _
  have hfn : 0 ≤ f ∧ startAt cfg width first j l.1 + (W + f * I) ≤ width + rightOver M cfg.align l.2 l.1 ∧ 0 - leftOver M cfg.align l.1 ≤ startAt cfg width first j l.1 := by
    unfold leftOver rightOver startAt
    rw [hend, hblank, hli, ← hindd]
    by_cases hj : cfg.align = c!"j"
    · have hnm : ¬ cfg.moved = true := by unfold TCfg.moved; rw [hj]; decide
      have hmin : minFactor cfg.align = 7 / 10 := by unfold minFactor; rw [if_pos hj]
      rw [hmin, hind'] at hfit'
      have hr : ¬ cfg.align = c!"r" := by rw [hj]; decide
      have hc : ¬ cfg.align = c!"c" := by rw [hj]; decide
      rw [if_neg hnm, if_neg hr, if_neg hc]
      by_cases hlast : l.2 = true
      · have hf1 : f = 1 := by rw [hf]; unfold factorAt; rw [if_pos (.inr (.inl hlast))]
        rw [hf1, if_pos ⟨hj, hlast⟩]
        refine ⟨zero_le_one, by linarith, by linarith⟩
      · rw [if_neg (fun h : cfg.align = c!"j" ∧ l.2 = true => hlast h.2)]
        by_cases hsp : (partsWidths l.1.parts).2 = 0
        · have hf1 : f = 1 := by rw [hf]; unfold factorAt; rw [if_pos (.inr (.inr hsp))]
          rw [hP2] at hsp
          have : I = 0 := by linarith
          rw [this] at hfit' ⊢
          rw [hf1]
          refine ⟨zero_le_one, by linarith, by linarith⟩
        · have hf1 : f = (width - ind - W) / (I + t) := by
            rw [hf]; unfold factorAt
            rw [if_neg (by rintro (h | h | h); exacts [h hj, hlast h, hsp h]), hP1, hP2, hli, hind', sub_zero]
          rw [hP2] at hsp
          have hpos : 0 < I + t := lt_of_le_of_ne (by linarith) (Ne.symm hsp)
          have h0 : 0 ≤ f := by rw [hf1]; exact div_nonneg (by linarith) hpos.le
          have h1 : f * (I + t) = width - ind - W := by rw [hf1]; field_simp
          have h2 : 0 ≤ f * t := mul_nonneg h0 htn
          refine ⟨h0, by linarith, by linarith⟩
    · have hf1 : f = 1 := by rw [hf]; unfold factorAt; rw [if_pos (.inl hj)]
      have hmin : minFactor cfg.align = 1 := by unfold minFactor; rw [if_neg hj]
      rw [hmin, hind'] at hfit'
      rw [hf1, if_neg (fun h : cfg.align = c!"j" ∧ l.2 = true => hj h.1)]
      by_cases hm : cfg.moved = true
      · have hi := hmv hm
        have hi0 : ind = 0 := by rw [hindd, hi]; split <;> rfl
        rw [if_pos hm, hi0]
        rw [hi0] at hfit'
        unfold lineIndent
        rw [hP1, hP2]
        by_cases hc : cfg.align = c!"c"
        · have hr : ¬ cfg.align = c!"r" := by rw [hc]; decide
          rw [if_pos hc, if_neg hr, if_pos hc]
          refine ⟨zero_le_one, by linarith, by linarith⟩
        · have hr : cfg.align = c!"r" := by
            unfold TCfg.moved at hm
            simpa [hc] using hm
          rw [if_neg hc, if_pos hr]
          refine ⟨zero_le_one, by linarith, by linarith⟩
      · have hr : ¬ cfg.align = c!"r" := by intro h; apply hm; unfold TCfg.moved; simp [h]
        have hc : ¬ cfg.align = c!"c" := by intro h; apply hm; unfold TCfg.moved; simp [h]
        rw [if_neg hm, if_neg hr, if_neg hc]
        refine ⟨zero_le_one, by linarith, by linarith⟩
  obtain ⟨f0, fr, fl⟩ := hfn
  -- the words before and up to this one
  have hpre : ∀ k : List (TPart × Str), k <+: lineWords l.1 → |(k.map (wordShown M tw)).sum - (k.map (wordExact M f)).sum| ≤ (lineBlanks l.1 : Rat) * ε := by
    intro k hk
    obtain ⟨k', hk'⟩ := hk
    refine le_trans (shown_close hε htw ?_) ?_
    · intro q hq
      have hq' : q ∈ lineWords l.1 := by rw [← hk']; exact List.mem_append_left _ hq
      refine ⟨hpc q hq', (hparts _ (hmem q hq').1).1 _ (hmem q hq').2, ?_⟩
      by_cases hj : cfg.align = c!"j"
      · exact .inl ((hparts _ (hmem q hq').1).2 hj)
      · right
        rw [hf]; unfold factorAt; rw [if_pos (.inl hj)]
    · refine mul_le_mul_of_nonneg_right ?_ hε
      rw [lineBlanks_eq, ← hk', List.map_append, List.sum_append]
      exact_mod_cast Nat.le_add_right _ _
  have k1 := hpre pre ⟨_, e1.symm⟩
  have k2 := hpre (pre ++ [q.1]) ⟨post, by rw [e1]; simp⟩
  rw [List.map_append, List.map_append, List.sum_append, List.sum_append, List.map_singleton, List.map_singleton, List.sum_singleton, List.sum_singleton] at k2
  have hrest : ∀ q ∈ rest, 0 ≤ q.1.look.st.size := fun q hq => hszv q (by rw [e3]; simp [hq])
  have n1 : 0 ≤ (pre.map (wordExact M f)).sum := sum_exact_nonneg hM f0 fun q hq => hszv q (by rw [e3]; simp [hq])
  have n2 : (pre.map (wordExact M f)).sum + wordExact M f q.1 ≤ W + f * I := by
    rw [← hvis f, e3, List.map_append, List.sum_append, List.map_cons, List.sum_cons]
    have := sum_exact_nonneg hM f0 hrest
    linarith
  have hx' := abs_le.1 hx
  have k1' := abs_le.1 k1
  have k2' := abs_le.1 k2
  rw [e2]
  constructor <;> nlinarith [hx'.1, hx'.2, k1'.1, k1'.2, k2'.1, k2'.2]

/-- what is painted besides the text shows none -/
theorem deco_no_text {comps : PDFColor Rat → List Bytes} {e : Mark → Rat} {gs0 : GS} {ds : List Deco} {drawn : List Event}
    (h : List.Forall₂ (DecoPainted comps e gs0) ds drawn) : ∀ gs tm mv s, Event.text gs tm mv s ∉ drawn := by
  intro gs tm mv s he
  induction h with
  | nil => cases he
  | @cons d ev ds es hd _ ih =>
    rcases List.mem_cons.1 he with rfl | he
    · cases d with
      | back k => obtain ⟨_, _, _, _, _, h1, -⟩ := hd; cases h1
      | under k => obtain ⟨_, _, _, _, h1, -⟩ := hd; cases h1
    · exact ih he

/-- the error of a place: the moves to the lines so far and the word spacings are rounded -/
def wordErr (ε : Rat) (j : Nat) (l : TLine) : Rat := ((j : Rat) + 1 + lineBlanks l) * ε

/-- the lines of a run -/
theorem run_within (hM : ∀ f m c, 0 ≤ M f m c) {cfg : TCfg} (hlist : cfg.list = none) (hmv : cfg.moved = true → cfg.indent = 0) (hind : 0 ≤ cfg.indent)
    (hlk : ∀ x ∈ contentLooks cfg.content, cfg.align = c!"j" → x.enc = none) (hw : ∀ w ∈ contentWords cfg.content, w = c!" " ∨ ' ' ∉ w) {width height : Rat} {pos : TPos} (hr : TReach M cfg pos)
    {ε : Rat} (hε : 0 ≤ ε) {X : Nat → Rat} {tw : Nat → TPart → Rat}
    (h : ∀ j l, (textRun M cfg width height pos).lines[j]? = some l → |startAt cfg width pos.isFirstLine j l.1 - X j| ≤ ((j : Rat) + 1) * ε ∧
      ∀ p, |tw j p - p.spaceWidth M * (factorAt cfg width pos.isFirstLine j l - 1)| ≤ ε) :
    WordsWithin M cfg.align (wordErr ε) 0 width X tw (textRun M cfg width height pos).lines ∧ ∀ l ∈ (textRun M cfg width height pos).lines, l.1.align = cfg.align := by
  obtain ⟨_, hp⟩ := hr.post
  have hu := textRun_used M cfg width height pos hp.lastV
  have hlines := textRun_lines M cfg width height pos hp.lastV
  have hall := textRun_fits M cfg width height pos hlist hp.lastV
  refine ⟨?_, fun l hl => ?_⟩
  rotate_left
  · obtain ⟨j, hj⟩ := List.getElem?_of_mem hl
    exact (hall j l hj).2.2
  intro j l hl hsz
  have hfit := hall j l hl
  have hmem : l ∈ (textRun M cfg width height pos).lines := List.mem_of_getElem? hl
  refine line_within hM hlist hmv hind (hlines.ok l hmem) ?_ hfit.1 hfit.2.1 hε (h j l hl).1 (h j l hl).2 hsz
  intro p hp
  refine ⟨fun w hwm => ?_, hlk _ (hu.lk l hmem _ (List.mem_map_of_mem hp)).1⟩
  rcases hlines.words l hmem (w, p.look, p.ids) (by
    unfold pieces
    rw [List.mem_flatMap]
    exact ⟨p, hp, List.mem_map.2 ⟨w, hwm, rfl⟩⟩) with e | e
  · exact Or.inl e
  · exact hw w e

end

end Verif
