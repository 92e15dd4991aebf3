import Verif.Lemmas.TextPlace
import Mathlib.Algebra.Order.BigOperators.Group.List
import Mathlib.Algebra.Order.Ring.Abs
import Mathlib.Tactic.FieldSimp
/-! C27: justified lines fill the width. C28: where lines begin. -/
namespace Verif
open Spec

/-- the width of the text of a part, shown with `tw` of additional word spacing: that is added to blanks in simple
fonts only, ISO 32000-1, 9.3.3 -/
def shownWidth (M : Metrics) (tw : Rat) (p : TPart) : Rat :=
  p.look.st.size * (p.words.flatten.map (M p.look.st.family p.look.st.mode)).sum +
    (if p.look.enc = none then (p.words.flatten.count ' ' : Rat) * tw else 0)

/-- the number of blanks of a line -/
def lineBlanks (l : TLine) : Nat := (l.parts.map fun p => p.words.flatten.count ' ').sum

/-- numbers are written in decimal, up to `ε` -/
structure TFmt.Dec (F : TFmt) (ε : Rat) : Prop where
  val : ∀ x, numVal (F.b x) = some (F.rnd x)
  err : ∀ x, |F.rnd x - x| ≤ ε

theorem wordWidth_flatten (M : Metrics) (s : PState) (ws : List Str) :
    wordWidth M s ws.flatten = (ws.map (wordWidth M s)).sum := by
  induction ws with
  | nil => simp [wordWidth]
  | cons w ws ih =>
    rw [List.flatten_cons, List.map_cons, List.sum_cons, ← ih]
    simp only [wordWidth, List.map_append, List.sum_append]
    ring

theorem part_widths (M : Metrics) (p : TPart) (hok : p.Ok M) (hw : ∀ w ∈ p.words, w = c!" " ∨ ' ' ∉ w) :
    wordWidth M p.look.st p.words.flatten = p.width + p.spaces ∧ p.spaces = (p.words.flatten.count ' ' : Rat) * p.spaceWidth M := by
  obtain ⟨h1, h2⟩ := hok
  rw [h1, h2, wordWidth_flatten]
  unfold TPart.spaceWidth
  generalize p.words = ws at hw
  constructor
  · clear hw
    induction ws with
    | nil => simp
    | cons w ws ih =>
      by_cases h : w = c!" "
      · subst h; simp at ih ⊢; rw [ih]; ring
      · simp [h] at ih ⊢; rw [ih]; ring
  · induction ws with
    | nil => simp
    | cons w ws ih =>
      have ih := ih fun v hv => hw v (by simp [hv])
      rcases hw w (by simp) with h | h
      · subst h
        simp at ih ⊢
        rw [ih]; ring
      · have hne : w ≠ c!" " := by rintro rfl; simp at h
        simp only [List.flatten_cons, List.count_append, List.count_eq_zero.2 h, Nat.zero_add]
        rw [← ih]
        simp [hne]

/-- the factor of a line -/
def factorAt (cfg : TCfg) (width : Rat) (first : Bool) (j : Nat) (l : TLine × Bool) : Rat :=
  if cfg.align ≠ c!"j" ∨ l.2 = true ∨ (partsWidths l.1.parts).2 = 0 then 1
  else (availW cfg width first j - cfg.listIndent - (partsWidths l.1.parts).1) / (partsWidths l.1.parts).2

theorem lineFactor_eq (cfg : TCfg) (width : Rat) (first : Bool) (j : Nat) (l : TLine × Bool) (g : Geo) (hg : GeoAt first j g) :
    lineFactor cfg width l.2 l.1 g = factorAt cfg width first j l := by
  unfold lineFactor factorAt
  split
  · rfl
  · congr 1
    unfold Geo.factorWidth availW
    by_cases h : first = true ∧ j = 0
    · rw [if_pos (hg.atStart.2 h), if_pos h]; ring
    · rw [if_neg (fun hh => h (hg.atStart.1 hh)), if_neg h]; ring

/-- a number as an operand of `Tw` -/
theorem tw_val {F : TFmt} {ε : Rat} (hd : F.Dec ε) (v : Rat) : numVal (bytesOf (F.tw v)) = some (F.rnd v) := by
  unfold TFmt.tw
  split
  · rename_i h; rw [h]; decide +kernel
  · exact hd.val v

/-- an event shows a part with a word spacing -/
def TwEvent (tw : Nat → TPart → Rat) (pl : Placed) (e : Event) : Prop := ∀ p, pl.part = some p →
  ∃ gs tm mv str, e = .text gs tm mv str ∧ numVal gs.wordSpace = some (tw pl.j p)

theorem sum_le_of {α : Type} {f g h : α → Rat} : ∀ {l : List α}, (∀ a ∈ l, |f a - g a| ≤ h a) →
    |(l.map f).sum - (l.map g).sum| ≤ (l.map h).sum := by
  intro l
  induction l with
  | nil => intro _; simp
  | cons a l ih =>
    intro hh
    simp only [List.map_cons, List.sum_cons]
    have h1 := hh a (by simp)
    have h2 := ih fun b hb => hh b (by simp [hb])
    have : f a + (l.map f).sum - (g a + (l.map g).sum) = (f a - g a) + ((l.map f).sum - (l.map g).sum) := by ring
    rw [this]
    exact le_trans (abs_add_le _ _) (by linarith)

theorem placed_line (cfg : TCfg) (first : Bool) (ls : List (TLine × Bool)) :
    ∀ pl ∈ placedFrom cfg first 0 ls, ls[pl.j]? = some pl.line := by
  have key : ∀ (ls' : List (TLine × Bool)) (j : Nat), ls.drop j = ls' → ∀ pl ∈ placedFrom cfg first j ls', ls[pl.j]? = some pl.line := by
    intro ls'
    induction ls' with
    | nil => intro j _ pl hpl; simp [placedFrom] at hpl
    | cons l ls' ih =>
      intro j hdrop pl hpl
      have hjl : ls[j]? = some l := by
        have : (ls.drop j)[0]? = some l := by rw [hdrop]; rfl
        simpa using this
      rw [placedFrom, List.mem_append, List.mem_append] at hpl
      rcases hpl with (hpl | hpl) | hpl
      · split at hpl
        · simp only [List.mem_singleton] at hpl; subst hpl; exact hjl
        · simp at hpl
      · obtain ⟨p, _, rfl⟩ := List.mem_map.1 hpl; exact hjl
      · exact ih (j + 1) (by rw [← List.tail_drop, hdrop]; rfl) pl hpl
  exact key ls 0 rfl

/-- C27: in a justified paragraph without line breaks, in standard fonts, the text of every line of a run but the
last two, shown with the word spacing that is in force when its parts are shown, is as wide as the space available
to the line, up to the error of rounding the word spacings. -/
theorem C27_justified_partial (F : TFmt) (hF : F.Ok) (ε : Rat) (hd : F.Dec ε) (E : Encs) (hE : E.Ok) (refOf : Str → Str → Str)
    (M : Metrics) (cfg : TCfg) (enc : Option (Str × Str)) (hs : StylesOk F refOf cfg) (hlt : ListTextOk cfg enc)
    (hj : cfg.align = c!"j") (hbr : TItem.br ∉ cfg.content)
    (hstd : ∀ x ∈ contentLooks cfg.content, x.enc = none ∧ 0 < x.st.size * M x.st.family x.st.mode ' ')
    (hw : ∀ w ∈ contentWords cfg.content, w = c!" " ∨ ' ' ∉ w)
    (width height : Rat) (pos : TPos) (hr : TReach M cfg pos) (correct : Bool) (o : OutSt)
    (h : textOut F M E cfg enc width height pos correct = .ok o) (b : Bytes) (hb : encodeLatin o.text = .ok b) :
    ∃ (ops : List Op) (tw : Nat → TPart → Rat), opsOf b = some ops ∧
      (∀ j l, (textRun M cfg width height pos).lines[j]? = some l → j + 2 < (textRun M cfg width height pos).lines.length →
        lineBlanks l.1 ≠ 0 →
        |(l.1.parts.map fun p => shownWidth M (tw j p) p).sum - (availW cfg width pos.isFirstLine j - cfg.listIndent)| ≤
          lineBlanks l.1 * ε) ∧
      ∀ m : MS, m.path = [] → (∃ t, m.text = some t) → ∃ m' evs, exec m ops = some (m', evs) ∧
        List.Forall₂ (TwEvent tw) (placedFrom cfg pos.isFirstLine 0 (textRun M cfg width height pos).lines) evs := by
  obtain ⟨hl, rfl⟩ := encodeLatin_inv hb
  obtain ⟨_, hp⟩ := hr.post
  have hu := textRun_used M cfg width height pos hp.lastV
  have hlines := textRun_lines M cfg width height pos hp.lastV
  have hflags := textRun_flags M cfg width height pos hbr hp.lastV
  obtain ⟨ops, h1, _, h3⟩ := textOut_ops hF hE (hs.cfgOk hlt) (by
    intro l hl p hp
    exact hs.looks _ (hu.lk l hl _ (List.mem_map_of_mem hp)).1) h hl
  have hok := hlines.ok
  have hws := hlines.words
  have hlk := hu.lk
  generalize (textRun M cfg width height pos).lines = ls at *
  let fac : Nat → Rat := fun j => match ls[j]? with
    | some l => factorAt cfg width pos.isFirstLine j l
    | none => 1
  refine ⟨ops, fun j p => F.rnd (p.spaceWidth M * (fac j - 1)), h1.ops, ?_, ?_⟩
  · intro j l hjl hlt hbl
    have hmem := List.mem_of_getElem? hjl
    have hfac : fac j = factorAt cfg width pos.isFirstLine j l := by simp only [fac, hjl]
    have hwords : ∀ p ∈ l.1.parts, ∀ w ∈ p.words, w = c!" " ∨ ' ' ∉ w := by
      intro p hp w hwm
      rcases hws l hmem (w, p.look, p.ids) (by
        unfold pieces
        rw [List.mem_flatMap]
        exact ⟨p, hp, List.mem_map.2 ⟨w, hwm, rfl⟩⟩) with e | e
      · exact Or.inl e
      · exact hw w e
    have hpw := fun p (hp : p ∈ l.1.parts) => part_widths M p (hok l hmem p hp) (hwords p hp)
    have hsp : ∀ p ∈ l.1.parts, 0 < p.spaceWidth M := by
      intro p hp
      have := (hstd _ (hlk l hmem p.look (List.mem_map_of_mem hp)).1).2
      simpa [TPart.spaceWidth, wordWidth] using this
    have hspaces : (partsWidths l.1.parts).2 ≠ 0 := by
      intro h0
      apply hbl
      unfold lineBlanks
      have hnn : ∀ p ∈ l.1.parts, 0 ≤ p.spaces := by
        intro p hp
        rw [(hpw p hp).2]
        exact mul_nonneg (by exact_mod_cast Nat.zero_le _) (le_of_lt (hsp p hp))
      have hz : ∀ p ∈ l.1.parts, p.spaces = 0 := by
        simp only [partsWidths] at h0
        generalize l.1.parts = ps at hnn h0
        clear * - hnn h0
        induction ps with
        | nil => simp
        | cons p ps ih =>
          simp only [List.map_cons, List.sum_cons] at h0
          have a := hnn p (by simp)
          have b : 0 ≤ (ps.map TPart.spaces).sum := List.sum_nonneg (by
            intro x hx
            obtain ⟨q, hq, rfl⟩ := List.mem_map.1 hx
            exact hnn q (by simp [hq]))
          intro q hq
          rcases List.mem_cons.1 hq with rfl | hq
          · linarith
          · exact ih (fun p hp => hnn p (by simp [hp])) (by linarith) q hq
      apply List.sum_eq_zero
      intro x hx
      obtain ⟨p, hp, rfl⟩ := List.mem_map.1 hx
      have e := (hpw p hp).2
      rw [hz p hp] at e
      have := (mul_eq_zero.1 e.symm).resolve_right (ne_of_gt (hsp p hp))
      exact_mod_cast this
    have hf : fac j = (availW cfg width pos.isFirstLine j - cfg.listIndent - (partsWidths l.1.parts).1) / (partsWidths l.1.parts).2 := by
      rw [hfac]
      unfold factorAt
      rw [if_neg]
      rintro (a | a | a)
      · exact a hj
      · rw [hflags j l hjl hlt] at a; cases a
      · exact hspaces a
    have htarget : availW cfg width pos.isFirstLine j - cfg.listIndent = (l.1.parts.map fun p => p.width + p.spaces * fac j).sum := by
      have : (l.1.parts.map fun p => p.width + p.spaces * fac j).sum = (partsWidths l.1.parts).1 + (partsWidths l.1.parts).2 * fac j := by
        simp only [partsWidths]
        generalize l.1.parts = ps
        generalize fac j = f
        induction ps with
        | nil => simp
        | cons p ps ih => simp only [List.map_cons, List.sum_cons, ih]; ring
      rw [this, hf]
      field_simp
      ring
    have hblanks : (lineBlanks l.1 : Rat) * ε = (l.1.parts.map fun p => (p.words.flatten.count ' ' : Rat) * ε).sum := by
      unfold lineBlanks
      generalize l.1.parts = ps
      induction ps with
      | nil => simp
      | cons p ps ih =>
        simp only [List.map_cons, List.sum_cons, Nat.cast_add, add_mul, ih]
    rw [htarget, hblanks]
    apply sum_le_of
    intro p hp
    have henc := (hstd _ (hlk l hmem p.look (List.mem_map_of_mem hp)).1).1
    obtain ⟨e1, e2⟩ := hpw p hp
    unfold shownWidth
    rw [if_pos henc]
    have e1' : p.look.st.size * (p.words.flatten.map (M p.look.st.family p.look.st.mode)).sum = p.width + p.spaces := e1
    rw [e1', e2]
    have herr := hd.err (p.spaceWidth M * (fac j - 1))
    beta_reduce
    generalize F.rnd (p.spaceWidth M * (fac j - 1)) = r at herr
    have hc : (0 : Rat) ≤ (p.words.flatten.count ' ' : Rat) := by exact_mod_cast Nat.zero_le _
    generalize (p.words.flatten.count ' ' : Rat) = c at hc
    have : p.width + c * p.spaceWidth M + c * r - (p.width + c * p.spaceWidth M * fac j) = c * (r - p.spaceWidth M * (fac j - 1)) := by ring
    rw [this, abs_mul, abs_of_nonneg hc]
    exact mul_le_mul_of_nonneg_left herr hc
  · intro m hm ⟨⟨tm, mv⟩, hmt⟩
    obtain ⟨gs, evs, e1, e2⟩ := h3 m tm mv hm hmt
    refine ⟨_, evs, e1, ?_⟩
    have hpl : List.Forall₂ (fun pl it => ∀ p, pl.part = some p → ∃ mv, it = ShItem.part p (factorAt cfg width pos.isFirstLine pl.j pl.line) mv)
        (placedFrom cfg pos.isFirstLine 0 ls) (runItems F cfg width ls ⟨false, 0, pos.isFirstLine, correct⟩ mv) := by
      refine placed_items _ (fun _ _ _ => True) (fun _ _ _ _ _ _ => trivial) ?_ ?_ ls 0 _ mv ⟨fun _ => ⟨rfl, rfl⟩, fun h => by omega⟩ trivial
      · intro j g mv l lc _ _ _ _ _ p hp; cases hp
      · intro j g mv l p hg _ _ q hq
        cases hq
        exact ⟨_, by rw [lineFactor_eq cfg width _ j l g hg]⟩
    have hline := placed_line cfg pos.isFirstLine ls
    refine forall2_comp ?_ (forall2_mem_right hpl hline) e2
    rintro pl it e ⟨hit, hjl⟩ hev p hpp
    obtain ⟨mv', rfl⟩ := hit p hpp
    obtain ⟨gs', s, he, _, hws, _⟩ := hev
    refine ⟨gs', tm, mv', _, he, ?_⟩
    rw [hws, tw_val hd]
    simp only [fac, hjl]

/-! ### where lines begin -/

/-- the width of the text of a line -/
def lineWidth (M : Metrics) (l : TLine) : Rat :=
  (l.parts.map fun p => p.look.st.size * (p.words.flatten.map (M p.look.st.family p.look.st.mode)).sum).sum

/-- where the `j`-th line of a run has to begin -/
def lineX (M : Metrics) (cfg : TCfg) (width : Rat) (first : Bool) (j : Nat) (l : TLine) : Rat :=
  if cfg.align = c!"r" then width - lineWidth M l
  else if cfg.align = c!"c" then (width - lineWidth M l) / 2
  else cfg.listIndent + (if first = true ∧ j = 0 then cfg.indent else 0)

/-- an event shows a part where its line begins (up to `ε` for each line), or the text of the list at the left edge -/
def StartsAt (M : Metrics) (cfg : TCfg) (width : Rat) (first : Bool) (ε : Rat) (pl : Placed) (e : Event) : Prop :=
  ∃ gs tm mv str x, e = .text gs tm mv str ∧ numSum (mv.map Prod.fst) = some x ∧
    (pl.part = none → x = 0) ∧ (pl.part ≠ none → |x - lineX M cfg width first pl.j pl.line.1| ≤ (pl.j + 1) * ε)

theorem numSum_append (a b : List Bytes) (x y : Rat) (ha : numSum a = some x) (hb : numSum b = some y) :
    numSum (a ++ b) = some (x + y) := by
  unfold numSum at *
  rw [List.mapM_append]
  cases h1 : a.mapM numVal with
  | none => simp [h1] at ha
  | some u =>
    cases h2 : b.mapM numVal with
    | none => simp [h2] at hb
    | some v =>
      simp only [h1, h2, Option.map_some, Option.some.injEq] at ha hb
      simp [ha, hb]

/-- where the lines before began -/
def xBefore (cfg : TCfg) (g : Geo) (j : Nat) : Rat :=
  if cfg.moved then g.lastIndent else if j = 0 then 0 else cfg.listIndent + (if g.correct then cfg.indent else 0)

/-- where a line begins, in terms of the widths the code uses -/
def lineX0 (cfg : TCfg) (width : Rat) (first : Bool) (j : Nat) (l : TLine) : Rat :=
  if cfg.moved then lineIndent cfg width l else cfg.listIndent + (if first = true ∧ j = 0 then cfg.indent else 0)

theorem x_step (cfg : TCfg) (width : Rat) (first correct : Bool) (hmv : cfg.moved = true → cfg.indent = 0 ∧ cfg.list = none)
    (hcor : cfg.indent = 0 ∨ correct = first) (j : Nat) (g : Geo) (l : TLine) (hg : GeoAt first j g)
    (h0 : j = 0 → g = ⟨false, 0, first, correct⟩) :
    xBefore cfg g j + g.dx cfg width l = lineX0 cfg width first j l ∧
    lineX0 cfg width first j l = xBefore cfg (g.next cfg width l) (j + 1) := by
  by_cases hm : cfg.moved = true
  · obtain ⟨hi, hl⟩ := hmv hm
    have hli : cfg.listIndent = 0 := by unfold TCfg.listIndent; rw [hl]
    constructor
    · unfold xBefore lineX0 Geo.dx Geo.adjusted
      simp only [hm, if_true, hi, hli]
      split
      · split <;> ring
      · split <;> ring
    · simp only [lineX0, xBefore, hm, if_true, Geo.next]
  · by_cases hj : j = 0
    · rw [h0 hj]
      subst hj
      constructor
      · unfold xBefore lineX0 Geo.dx Geo.adjusted
        cases first
        · simp [hm]
        · simp [hm]; ring
      · unfold xBefore lineX0 Geo.next
        simp only [hm]
        cases first
        · rcases hcor with h | h
          · simp [h]
          · simp [h]
        · rcases hcor with h | h
          · simp [h]
          · simp [h]
    · have hs := hg.2 (by omega)
      constructor
      · unfold xBefore lineX0 Geo.dx Geo.adjusted
        simp only [hm, hj, hs, if_true]
        cases g.correct
        · simp
        · simp
      · unfold xBefore lineX0 Geo.next
        simp [hm, hj, hs]

/-- C28: adding up the horizontal moves of a run, every line begins where its alignment asks for: at the left edge
(after the list indent), the first line of the paragraph at the indent; right aligned lines end at the right
edge, and centred lines are centred. This is up to the rounding of each move, for paragraphs that are not right aligned
or centred with an indent or as a list, and for runs that begin the paragraph or are correctly marked. -/
theorem C28_line_starts_partial (F : TFmt) (hF : F.Ok) (ε : Rat) (hd : F.Dec ε) (E : Encs) (hE : E.Ok) (refOf : Str → Str → Str)
    (M : Metrics) (cfg : TCfg) (enc : Option (Str × Str)) (hs : StylesOk F refOf cfg) (hlt : ListTextOk cfg enc)
    (hmv : cfg.align = c!"r" ∨ cfg.align = c!"c" → cfg.indent = 0 ∧ cfg.list = none)
    (hraw : cfg.list ≠ none → ∀ x, numVal (bytesOf (F.raw x)) = some x)
    (hw : ∀ w ∈ contentWords cfg.content, w = c!" " ∨ ' ' ∉ w)
    (width height : Rat) (pos : TPos) (hr : TReach M cfg pos) (correct : Bool)
    (hcor : cfg.indent = 0 ∨ correct = pos.isFirstLine) (o : OutSt)
    (h : textOut F M E cfg enc width height pos correct = .ok o) (b : Bytes) (hb : encodeLatin o.text = .ok b) :
    ∃ ops, opsOf b = some ops ∧ ∀ (m : MS) (tm : List Bytes), m.path = [] → m.text = some (tm, []) →
      ∃ m' evs, exec m ops = some (m', evs) ∧
        List.Forall₂ (StartsAt M cfg width pos.isFirstLine ε) (placedFrom cfg pos.isFirstLine 0 (textRun M cfg width height pos).lines) evs := by
  obtain ⟨hl, rfl⟩ := encodeLatin_inv hb
  obtain ⟨_, hp⟩ := hr.post
  have hu := textRun_used M cfg width height pos hp.lastV
  have hlines := textRun_lines M cfg width height pos hp.lastV
  obtain ⟨ops, h1, _, h3⟩ := textOut_ops hF hE (hs.cfgOk hlt) (by
    intro l hl p hp
    exact hs.looks _ (hu.lk l hl _ (List.mem_map_of_mem hp)).1) h hl
  have hok := hlines.ok
  have hws := hlines.words
  generalize (textRun M cfg width height pos).lines = ls at *
  refine ⟨ops, h1.ops, ?_⟩
  intro m tm hm hmt
  obtain ⟨gs, evs, e1, e2⟩ := h3 m tm [] hm hmt
  refine ⟨_, evs, e1, ?_⟩
  have hmoved : cfg.moved = true ↔ cfg.align = c!"r" ∨ cfg.align = c!"c" := by simp [TCfg.moved]
  have hmv' : cfg.moved = true → cfg.indent = 0 ∧ cfg.list = none := fun h => hmv (hmoved.1 h)
  have hε : 0 ≤ ε := le_trans (abs_nonneg _) (hd.err 0)
  have hzero : numVal b!"0" = some 0 := by decide +kernel
  -- the moves to a line
  have hstep : ∀ g l, ∃ y, numSum ((lineMoves F cfg width l g).map Prod.fst) = some y ∧ |y - g.dx cfg width l| ≤ ε := by
    intro g l
    unfold lineMoves
    split
    · rename_i hc
      have hne : cfg.list ≠ none := by intro hn; rw [hn] at hc; simp at hc
      refine ⟨g.dx cfg width l, ?_, by simpa using hε⟩
      unfold numSum
      simp [hzero, hraw hne]
    · refine ⟨F.rnd (g.dx cfg width l), ?_, hd.err _⟩
      unfold numSum
      simp [hd.val]
  let S : Placed → ShItem → Prop := fun pl it => ∃ mv x, ((∃ lc, it = .bullet lc mv) ∨ ∃ p f, it = .part p f mv) ∧
    numSum (mv.map Prod.fst) = some x ∧ (pl.part = none → x = 0) ∧
    (pl.part ≠ none → |x - lineX0 cfg width pos.isFirstLine pl.j pl.line.1| ≤ (pl.j + 1) * ε)
  have hpl : List.Forall₂ S (placedFrom cfg pos.isFirstLine 0 ls) (runItems F cfg width ls ⟨false, 0, pos.isFirstLine, correct⟩ []) := by
    have key : ∀ (j : Nat) (g : Geo) (mv : List (Bytes × Bytes)) (l : TLine), GeoAt pos.isFirstLine j g →
        (∃ s, numSum (mv.map Prod.fst) = some s ∧ |s - xBefore cfg g j| ≤ j * ε) → (j = 0 → g = ⟨false, 0, pos.isFirstLine, correct⟩) →
        ∃ s, numSum ((mv ++ lineMoves F cfg width l g).map Prod.fst) = some s ∧
          |s - lineX0 cfg width pos.isFirstLine j l| ≤ (j + 1) * ε := by
      intro j g mv l hg ⟨s, hs1, hs2⟩ h0
      obtain ⟨y, hy1, hy2⟩ := hstep g l
      refine ⟨s + y, by rw [List.map_append]; exact numSum_append _ _ _ _ hs1 hy1, ?_⟩
      obtain ⟨hx, _⟩ := x_step cfg width pos.isFirstLine correct hmv' hcor j g l hg h0
      rw [← hx]
      have : s + y - (xBefore cfg g j + g.dx cfg width l) = (s - xBefore cfg g j) + (y - g.dx cfg width l) := by ring
      rw [this]
      exact le_trans (abs_add_le _ _) (by linarith)
    refine placed_items S (fun j g mv => (∃ s, numSum (mv.map Prod.fst) = some s ∧ |s - xBefore cfg g j| ≤ j * ε) ∧
      (j = 0 → g = ⟨false, 0, pos.isFirstLine, correct⟩ ∧ mv = [])) ?_ ?_ ?_ ls 0 _ [] ⟨fun _ => ⟨rfl, rfl⟩, fun h => by omega⟩ ?_
    · intro j g mv l hg ⟨hi, h0⟩
      refine ⟨?_, fun h => by omega⟩
      obtain ⟨s, k1, k2⟩ := key j g mv l hg hi fun hj => (h0 hj).1
      obtain ⟨_, hx⟩ := x_step cfg width pos.isFirstLine correct hmv' hcor j g l hg fun hj => (h0 hj).1
      rw [hx] at k2
      exact ⟨s, k1, by push_cast; exact k2⟩
    · intro j g mv l lc hg ⟨_, h0⟩ _ hj _
      obtain ⟨_, rfl⟩ := h0 hj
      refine ⟨_, 0, Or.inl ⟨lc, rfl⟩, ?_, fun _ => rfl, fun h => absurd rfl h⟩
      unfold numSum
      simp [hzero]
    · intro j g mv l p hg ⟨hi, h0⟩ _
      obtain ⟨s, k1, k2⟩ := key j g mv l.1 hg hi fun hj => (h0 hj).1
      exact ⟨_, s, Or.inr ⟨_, _, rfl⟩, k1, fun h => (by cases h), fun _ => k2⟩
    · refine ⟨⟨0, by simp [numSum], ?_⟩, fun _ => ⟨rfl, rfl⟩⟩
      simp [xBefore]
  have hline := placed_line cfg pos.isFirstLine ls
  refine forall2_comp ?_ (forall2_mem_right hpl hline) e2
  rintro pl it e ⟨⟨mv, x, hit, hx1, hx2, hx3⟩, hjl⟩ hev
  have hmem := List.mem_of_getElem? hjl
  have hX : lineX0 cfg width pos.isFirstLine pl.j pl.line.1 = lineX M cfg width pos.isFirstLine pl.j pl.line.1 := by
    have hwid : lineWidth M pl.line.1 = (partsWidths pl.line.1.parts).1 + (partsWidths pl.line.1.parts).2 := by
      have hpw : ∀ p ∈ pl.line.1.parts, p.look.st.size * (p.words.flatten.map (M p.look.st.family p.look.st.mode)).sum = p.width + p.spaces := by
        intro p hp
        refine (part_widths M p (hok pl.line hmem p hp) ?_).1
        intro w hwm
        rcases hws pl.line hmem (w, p.look, p.ids) (by
          unfold pieces
          rw [List.mem_flatMap]
          exact ⟨p, hp, List.mem_map.2 ⟨w, hwm, rfl⟩⟩) with e | e
        · exact Or.inl e
        · exact hw w e
      unfold lineWidth partsWidths
      generalize pl.line.1.parts = ps at hpw
      clear * - hpw
      induction ps with
      | nil => simp
      | cons p ps ih =>
        simp only [List.map_cons, List.sum_cons]
        rw [ih fun q hq => hpw q (by simp [hq]), hpw p (by simp)]
        ring
    unfold lineX0 lineX lineIndent
    rw [hwid]
    by_cases hr : cfg.align = c!"r"
    · have hc : cfg.align ≠ c!"c" := by rw [hr]; decide
      rw [if_pos (hmoved.2 (Or.inl hr)), if_pos hr]
      simp only [if_neg hc]
      ring
    · by_cases hc : cfg.align = c!"c"
      · rw [if_pos (hmoved.2 (Or.inr hc)), if_neg hr, if_pos hc]
        simp only [if_pos hc]
        ring
      · rw [if_neg (fun h => (hmoved.1 h).elim hr hc), if_neg hr, if_neg hc]
  rw [hX] at hx3
  rcases hit with ⟨lc, rfl⟩ | ⟨p, f, rfl⟩
  · obtain ⟨gs', s, he, _⟩ := hev
    exact ⟨gs', tm, mv, s, x, he, hx1, hx2, hx3⟩
  · obtain ⟨gs', s, he, _⟩ := hev
    exact ⟨gs', tm, mv, _, x, he, hx1, hx2, hx3⟩

/-! ### examples and counterexamples (10 point text, every character is as wide as it is high) -/

/-- a paragraph of one part -/
def ex3Par (s : Str) (indent : Rat) (align : Str) (list : Option ListCfg) (enc : Option Str) : TCfg :=
  ⟨[.text (splitWords s) (samplePart [] enc).look none], indent, align, 1, list⟩

/-- what is shown by the stream of a run: the string, where it begins, and the word spacing -/
def ex3Shown (cfg : TCfg) (E : Encs) (width height : Rat) (pos : TPos) (correct : Bool) : Option (List (Bytes × Option Rat × Option Rat)) :=
  match textOut sampleTFmt sampleM E cfg none width height pos correct with
  | .error _ => none
  | .ok o => (execStream ⟨sampleGS, [], [], some ([], [])⟩ (bytesOf o.text)).map fun r => r.2.map fun
    | .text gs _ mv s => (s, numSum (mv.map Prod.fst), numVal gs.wordSpace)
    | _ => ([], none, none)

theorem sampleTFmt_val (x : Rat) : numVal (sampleTFmt.b x) = some (sampleTFmt.rnd x) := by
  have hdec : ∀ n : Nat, decNum (bytesOf (natStr n)) = some (n : Rat) := by
    intro n
    have hd : ∀ c ∈ bytesOf (natStr n), 48 ≤ c ∧ c ≤ 57 := by
      intro c hc
      obtain ⟨d, hd, rfl⟩ := List.mem_map.1 hc
      have h1 := natStr_digit hd
      simp only [Char.isDigit, Bool.and_eq_true, decide_eq_true_eq] at h1
      have h2 : 48 ≤ d.toNat ∧ d.toNat ≤ 57 := ⟨h1.1, h1.2⟩
      have e : (latin1 d).toNat = d.toNat := latin1_toNat (by omega)
      rw [UInt8.le_iff_toNat_le, UInt8.le_iff_toNat_le, e]
      exact h2
    have hn : ∀ c ∈ bytesOf (natStr n), c ≠ 46 := by
      rintro c hc rfl
      have := (hd _ hc).1
      revert this; decide
    have e0 : ∀ l : Bytes, (∀ c ∈ l, c ≠ 46) → l.dropWhile (· ≠ 46) = [] ∧ l.takeWhile (· ≠ 46) = l := by
      intro l
      induction l with
      | nil => simp
      | cons c l ih =>
        intro h
        obtain ⟨i1, i2⟩ := ih fun c hc => h c (by simp [hc])
        have := h c (by simp)
        simp only [List.dropWhile_cons, List.takeWhile_cons, this, ne_eq, not_false_eq_true, decide_true, if_true]
        exact ⟨i1, by rw [show List.takeWhile (fun x => decide ¬x = 46) l = l from i2]⟩
    obtain ⟨e1, e2⟩ := e0 _ hn
    unfold decNum
    simp only [e1, e2]
    have e3 : isDecimal (bytesOf (natStr n)) = true := by
      unfold isDecimal
      have : bytesOf (natStr n) ≠ [] := by simp [bytesOf, natStr_ne_nil]
      simp only [Bool.and_eq_true, Bool.not_eq_true', List.isEmpty_eq_false_iff, List.all_eq_true, decide_eq_true_eq]
      exact ⟨this, hd⟩
    rw [if_pos e3]
    have := decVal_natStr n
    simp only [bytesOf, this]
  have hint : ∀ n : Int, numVal (bytesOf (intStr n)) = some (n : Rat) := by
    intro n
    cases n with
    | ofNat n =>
      have h := hdec n
      have hs : ∃ c t, natStr n = c :: t ∧ c.isDigit := by
        cases e : natStr n with
        | nil => exact absurd e (natStr_ne_nil n)
        | cons c t => exact ⟨c, t, rfl, natStr_digit (by rw [e]; simp)⟩
      obtain ⟨c, t, e, hc⟩ := hs
      simp only [intStr, e] at h ⊢
      have hne : latin1 c ≠ 45 ∧ latin1 c ≠ 43 := by
        simp only [Char.isDigit, Bool.and_eq_true, decide_eq_true_eq] at hc
        have h2 : 48 ≤ c.toNat ∧ c.toNat ≤ 57 := ⟨hc.1, hc.2⟩
        have e : (latin1 c).toNat = c.toNat := latin1_toNat (by omega)
        constructor
        · intro hh; rw [hh] at e; have : (45 : UInt8).toNat = 45 := rfl; omega
        · intro hh; rw [hh] at e; have : (43 : UInt8).toNat = 43 := rfl; omega
      have e5 : bytesOf (c :: t) = latin1 c :: bytesOf t := rfl
      rw [e5] at h ⊢
      unfold numVal
      split
      · rename_i hh; injection hh with hh _; exact absurd hh hne.1
      · rename_i hh; injection hh with hh _; exact absurd hh hne.2
      · exact h
    | negSucc n =>
      have h := hdec (n + 1)
      have e : bytesOf (intStr (Int.negSucc n)) = 45 :: bytesOf (natStr (n + 1)) := rfl
      rw [e]
      simp only [numVal, h, Option.map_some]
      simp [Int.negSucc_eq]
  exact hint _

/-- numbers written without fractions have an error of at most 1 -/
theorem sampleTFmt_dec : sampleTFmt.Dec 1 where
  val := sampleTFmt_val
  err := by
    intro x
    have h1 := Rat.floor_le (a := x)
    have h2 := Rat.lt_floor (x := x)
    show |((x.floor : Int) : Rat) - x| ≤ 1
    rw [abs_le]
    constructor <;> push_cast at * <;> linarith

/-- a justified paragraph: lines of 60 with 20 of blanks -/
example : ex3Shown (ex3Par c!"aa bb cc dd ee ff gg" 0 c!"j" none none) (fun _ _ => none) 60 100 TPos.init true =
    some [(b!"aa bb", some 0, some 10), (b!"cc dd", some 0, some 10), (b!"ee ff", some 0, some 0), (b!"gg", some 0, some 0)] := by
  decide +kernel

/-- **C27 is false for the line before the last one**: when the last word of the paragraph starts a new line, the
line before counts as last, and is not justified. In a width of 60 the first line of `aa bb cc` is shown without
additional word spacing, and takes 50. -/
theorem C27_line_before_last_false :
    ex3Shown (ex3Par c!"aa bb cc" 0 c!"j" none none) (fun _ _ => none) 60 100 TPos.init true =
      some [(b!"aa bb", some 0, some 0), (b!"cc", some 0, some 0)] ∧
    (((textRun sampleM (ex3Par c!"aa bb cc" 0 c!"j" none none) 60 100 TPos.init).lines[0]?).map fun l =>
      (l.1.parts.map fun p => shownWidth sampleM 0 p).sum) = some 50 := by
  decide +kernel

/-- **C27 is false for TrueType fonts**: their codes have two bytes, and word spacing does not apply to them. The first
line is shown with a word spacing of 10, but still takes 50 of 60. -/
theorem C27_truetype_false :
    ex3Shown (ex3Par c!"aa bb cc dd ee" 0 c!"j" none (some c!"n")) (fun _ _ => some fun c => some c.toNat) 60 100 TPos.init true =
      some [([0, 97, 0, 97, 0, 32, 0, 98, 0, 98], some 0, some 10), ([0, 99, 0, 99, 0, 32, 0, 100, 0, 100], some 0, some 0),
        ([0, 101, 0, 101], some 0, some 0)] ∧
    (((textRun sampleM (ex3Par c!"aa bb cc dd ee" 0 c!"j" none (some c!"n")) 60 100 TPos.init).lines[0]?).map fun l =>
      (l.1.parts.map fun p => shownWidth sampleM 10 p).sum) = some 50 := by
  decide +kernel

/-- first lines are indented, right aligned lines end at 30 and centred lines have their middle at 15 -/
example : ex3Shown (ex3Par c!"aa bb cc" 5 c!"l" none none) (fun _ _ => none) 30 100 TPos.init true =
    some [(b!"aa", some 5, some 0), (b!"bb", some 0, some 0), (b!"cc", some 0, some 0)] := by decide +kernel
example : ex3Shown (ex3Par c!"aa b" 0 c!"r" none none) (fun _ _ => none) 25 100 TPos.init true =
    some [(b!"aa", some 5, some 0), (b!"b", some 15, some 0)] := by decide +kernel
example : ex3Shown (ex3Par c!"aa b" 0 c!"c" none none) (fun _ _ => none) 30 100 TPos.init true =
    some [(b!"aa", some 5, some 0), (b!"b", some 10, some 0)] := by decide +kernel

/-- **C28 is false for later rectangles**: `correct_indent` stays set when the first rectangle has room for one
line only, and the second line of the next one begins left of the left edge. -/
theorem C28_second_rectangle_false :
    ∃ o, textOut sampleTFmt sampleM (fun _ _ => none) (ex3Par c!"aa bb cc" 5 c!"l" none none) none 30 12 TPos.init true = .ok o ∧
      ex3Shown (ex3Par c!"aa bb cc" 5 c!"l" none none) (fun _ _ => none) 30 100
        (textRun sampleM (ex3Par c!"aa bb cc" 5 c!"l" none none) 30 12 TPos.init).pos o.geo.correct =
        some [(b!"bb", some 0, some 0), (b!"cc", some (-5), some 0)] := by
  refine ⟨_, (by decide +kernel : _ = Except.ok (OutSt.mk ⟨true, 0, false, true⟩ ⟨some sampleSt, some 0⟩ ⟨none, none, none⟩ (-11)
    c!" 5 -11 Td /F1 10 Tf 1 g 0 Ts 0 Tw (aa)Tj" [] [])), by decide +kernel⟩

/-- **C28 is false for right aligned paragraphs with an indent**: the indent is taken back from the second line on,
although it was not applied to the first one. The second line ends at 25 instead of 30. -/
theorem C28_right_indent_false :
    ex3Shown (ex3Par c!"aa bb" 5 c!"r" none none) (fun _ _ => none) 30 100 TPos.init true =
      some [(b!"aa", some 10, some 0), (b!"bb", some 5, some 0)] := by decide +kernel

/-- **C28 is false for right aligned lists**: the list indent is added to the indent of the line, so that the text (20
wide) ends at 107 instead of 100. -/
theorem C28_right_list_false :
    ex3Shown (ex3Par c!"aa" 0 c!"r" (some ⟨c!"1.", 7, sampleSt⟩) none) (fun _ _ => none) 100 100 TPos.init true =
      some [(b!"1.", some 0, some 0), (b!"aa", some 87, some 0)] := by decide +kernel

end Verif
