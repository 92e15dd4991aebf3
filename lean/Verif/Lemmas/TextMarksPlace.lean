import Verif.Lemmas.TextMarks
import Verif.Lemmas.CellText
import Verif.Props.C27_C28_Place
import Mathlib.Tactic.Ring
import Mathlib.Tactic.Linarith
/-! The pieces of a text are where the machine shows them. -/
namespace Verif
open Spec

/-- the moves up to a line -/
def mvAt (F : TFmt) (cfg : TCfg) (width : Rat) : List (TLine × Bool) → Geo → List (Bytes × Bytes) → Nat → List (Bytes × Bytes)
  | [], _, mv, _ => mv
  | l :: _, g, mv, 0 => mv ++ lineMoves F cfg width l.1 g
  | l :: ls, g, mv, i + 1 => mvAt F cfg width ls (g.next cfg width l.1) (mv ++ lineMoves F cfg width l.1 g) i

/-- a sum of moves -/
def MarkMoved (mv : List (Bytes × Bytes)) (x y : Rat) : Prop := numSum (mv.map Prod.fst) = some x ∧ numSum (mv.map Prod.snd) = some y

theorem MarkMoved.append {a b : List (Bytes × Bytes)} {x y x' y' : Rat} (h : MarkMoved a x y) (h' : MarkMoved b x' y') : MarkMoved (a ++ b) (x + x') (y + y') :=
  ⟨by rw [List.map_append]; exact numSum_append _ _ _ _ h.1 h'.1, by rw [List.map_append]; exact numSum_append _ _ _ _ h.2 h'.2⟩

/-- numbers are written in decimal, also after a minus -/
structure TFmt.Signed (F : TFmt) (ε : Rat) : Prop extends F.Dec ε where
  down : ∀ x, 0 ≤ x → numVal (F.down x) = some (-F.rnd x)

theorem lineMoves_moved {F : TFmt} {ε : Rat} (hd : F.Signed ε) {cfg : TCfg} (hraw : cfg.list ≠ none → ∀ x, numVal (bytesOf (F.raw x)) = some x)
    (width : Rat) (l : TLine) (g : Geo) (hdy : 0 ≤ g.dy cfg l) :
    ∃ x y, MarkMoved (lineMoves F cfg width l g) x y ∧ |x - g.dx cfg width l| ≤ ε ∧ |y + g.dy cfg l| ≤ ε := by
  have hε : 0 ≤ ε := le_trans (abs_nonneg _) (hd.err 0)
  have hzero : numVal b!"0" = some 0 := by decide +kernel
  have hy : |-F.rnd (g.dy cfg l) + g.dy cfg l| ≤ ε := by
    have := hd.err (g.dy cfg l)
    rw [show -F.rnd (g.dy cfg l) + g.dy cfg l = -(F.rnd (g.dy cfg l) - g.dy cfg l) by ring, abs_neg]
    exact this
  unfold lineMoves
  split
  · rename_i hc
    have hne : cfg.list ≠ none := by intro hn; rw [hn] at hc; simp at hc
    refine ⟨g.dx cfg width l, -F.rnd (g.dy cfg l), ⟨?_, ?_⟩, by simpa using hε, hy⟩
    · unfold numSum; simp [hzero, hraw hne]
    · unfold numSum; simp [hzero, hd.down _ hdy]
  · refine ⟨F.rnd (g.dx cfg width l), -F.rnd (g.dy cfg l), ⟨?_, ?_⟩, hd.err _, hy⟩
    · unfold numSum; simp [hd.val]
    · unfold numSum; simp [hd.down _ hdy]

/-- where the line before began, in the coordinates of the code -/
def codeBefore (cfg : TCfg) (g : Geo) (j : Nat) : Rat :=
  if j = 0 then 0 else cfg.listIndent + (if cfg.moved then g.lastIndent else 0) + (if g.correct then cfg.indent else 0)

theorem code_step (cfg : TCfg) (width : Rat) (first correct : Bool) (hmv : cfg.moved = true → cfg.indent = 0)
    (hcor : cfg.indent = 0 ∨ correct = first) (j : Nat) (g : Geo) (l : TLine) (hg : GeoAt first j g)
    (h0 : j = 0 → g = ⟨false, 0, first, correct⟩) :
    codeBefore cfg g j + g.dx cfg width l = g.x cfg width l ∧ g.x cfg width l = codeBefore cfg (g.next cfg width l) (j + 1) := by
  by_cases hj : j = 0
  · rw [h0 hj]
    subst hj
    constructor
    · unfold codeBefore Geo.dx Geo.x Geo.adjusted Geo.atStart
      by_cases hm : cfg.moved = true
      · have hi := hmv hm
        cases first <;> simp [hm, hi] <;> ring
      · cases first <;> simp [hm] <;> ring
    · unfold codeBefore Geo.x Geo.next Geo.atStart
      by_cases hm : cfg.moved = true
      · have hi := hmv hm
        cases first <;> simp [hm, hi]
      · cases first <;> rcases hcor with h | h <;> simp [hm, h]
  · have hs := hg.2 (by omega)
    constructor
    · unfold codeBefore Geo.dx Geo.x Geo.adjusted Geo.atStart
      by_cases hm : cfg.moved = true
      · have hi := hmv hm
        simp [hm, hi, hs, hj]
      · cases hc : g.correct <;> simp [hm, hs, hj]
    · unfold codeBefore Geo.x Geo.next Geo.atStart
      by_cases hm : cfg.moved = true <;> simp [hs, hm]

/-- blanks of a piece -/
def partBlanks (p : TPart) : Nat := p.words.flatten.count ' '

/-- a piece of the code is close to the same piece of the machine -/
structure CloseMark (ε : Rat) (a b : Mark) : Prop where
  same : a.j = b.j ∧ a.line = b.line ∧ a.part = b.part
  x : |a.x - b.x| ≤ (b.j + 1 + lineBlanks b.line : Rat) * ε
  y : |a.y - b.y| ≤ (b.j + 1 : Rat) * ε
  w : |a.w - b.w| ≤ (lineBlanks b.line : Rat) * ε
  r : |a.x + a.w - (b.x + b.w)| ≤ (b.j + 1 + lineBlanks b.line : Rat) * ε

theorem lineMarks_close {ε : Rat} (hε : 0 ≤ ε) {j : Nat} {line : TLine} {y y' : Rat} (hy : |y - y'| ≤ (j + 1 : Rat) * ε) {w w' : TPart → Rat} :
    ∀ (ps : List TPart) (x x' : Rat) (k : Nat), k + (ps.map partBlanks).sum ≤ lineBlanks line → |x - x'| ≤ (j + 1 + k : Rat) * ε →
      (∀ p ∈ ps, |w p - w' p| ≤ (partBlanks p : Rat) * ε) →
      List.Forall₂ (CloseMark ε) (lineMarks j line y w x ps) (lineMarks j line y' w' x' ps) := by
  intro ps
  induction ps with
  | nil => intro x x' k _ _ _; exact .nil
  | cons p ps ih =>
    intro x x' k hk hx hw
    have hwp := hw p (by simp)
    simp only [List.map_cons, List.sum_cons] at hk
    have hnext : |x + w p - (x' + w' p)| ≤ (j + 1 + (k + partBlanks p : Nat) : Rat) * ε := by
      rw [show x + w p - (x' + w' p) = (x - x') + (w p - w' p) by ring]
      refine le_trans (abs_add_le _ _) (le_trans (add_le_add hx hwp) (le_of_eq ?_))
      push_cast
      ring
    have hrest := ih (x + w p) (x' + w' p) (k + partBlanks p) (by omega) hnext fun q hq => hw q (by simp [hq])
    have hle : ∀ n : Nat, n ≤ lineBlanks line → (j + 1 + n : Rat) * ε ≤ (j + 1 + lineBlanks line : Rat) * ε := by
      intro n hn
      refine mul_le_mul_of_nonneg_right ?_ hε
      have : (n : Rat) ≤ lineBlanks line := by exact_mod_cast hn
      linarith
    simp only [lineMarks]
    refine List.rel_append ?_ hrest
    by_cases hm : marked p = true
    · simp only [hm, if_true]
      refine .cons ⟨⟨rfl, rfl, rfl⟩, le_trans hx (hle k (by omega)), hy, le_trans hwp ?_, le_trans hnext (hle _ (by omega))⟩ .nil
      refine mul_le_mul_of_nonneg_right ?_ hε
      show (partBlanks p : Rat) ≤ (lineBlanks line : Rat)
      have : partBlanks p ≤ lineBlanks line := by omega
      exact_mod_cast this
    · simp only [hm]
      exact .nil

/-- the width the code takes for a piece is the one it is shown with, up to the rounding of the word spacing -/
theorem width_close {F : TFmt} {ε : Rat} (hd : F.Dec ε) {M : Metrics} {p : TPart} (hok : p.Ok M) (hw : ∀ w ∈ p.words, w = c!" " ∨ ' ' ∉ w) {f : Rat}
    (hstd : p.look.enc = none ∨ f = 1) :
    |p.width + p.spaces * f - shownWidth M (F.rnd (p.spaceWidth M * (f - 1))) p| ≤ (partBlanks p : Rat) * ε := by
  obtain ⟨e1, e2⟩ := part_widths M p hok hw
  have hε : 0 ≤ ε := le_trans (abs_nonneg _) (hd.err 0)
  have hc : (0 : Rat) ≤ (partBlanks p : Rat) := by exact_mod_cast Nat.zero_le _
  have e1' : p.look.st.size * (p.words.flatten.map (M p.look.st.family p.look.st.mode)).sum = p.width + p.spaces := e1
  unfold shownWidth
  rw [e1']
  have herr := hd.err (p.spaceWidth M * (f - 1))
  by_cases henc : p.look.enc = none
  · rw [if_pos henc, e2]
    show |p.width + (partBlanks p : Rat) * p.spaceWidth M * f - (p.width + (partBlanks p : Rat) * p.spaceWidth M + (partBlanks p : Rat) * F.rnd (p.spaceWidth M * (f - 1)))| ≤ _
    rw [show p.width + (partBlanks p : Rat) * p.spaceWidth M * f - (p.width + (partBlanks p : Rat) * p.spaceWidth M + (partBlanks p : Rat) * F.rnd (p.spaceWidth M * (f - 1))) =
      -((partBlanks p : Rat) * (F.rnd (p.spaceWidth M * (f - 1)) - p.spaceWidth M * (f - 1))) by ring, abs_neg, abs_mul, abs_of_nonneg hc]
    exact mul_le_mul_of_nonneg_left herr hc
  · rw [if_neg henc, hstd.resolve_left henc]
    rw [show p.width + p.spaces * 1 - (p.width + p.spaces + 0) = 0 by ring, abs_zero]
    exact mul_nonneg hc hε

/-- where a line begins: right aligned and centred lines are moved, the first line of a paragraph is indented -/
def startAt (cfg : TCfg) (width : Rat) (first : Bool) (j : Nat) (l : TLine) : Rat :=
  (if cfg.moved = true then cfg.listIndent + lineIndent cfg width l else cfg.listIndent) + if first = true ∧ j = 0 then cfg.indent else 0

theorem startAt_eq (cfg : TCfg) (width : Rat) {first : Bool} {j : Nat} (l : TLine) {g : Geo} (hg : GeoAt first j g) : g.x cfg width l = startAt cfg width first j l := by
  unfold Geo.x startAt
  by_cases h : first = true ∧ j = 0
  · rw [if_pos (hg.atStart.2 h), if_pos h]
  · rw [if_neg (fun hh => h (hg.atStart.1 hh)), if_neg h, add_zero]

/-- all pieces of a run are close to the pieces of the machine, and the machine shows them -/
theorem codeMarks_close {F : TFmt} {ε : Rat} (hd : F.Signed ε) {M : Metrics} {cfg : TCfg} (hraw : cfg.list ≠ none → ∀ x, numVal (bytesOf (F.raw x)) = some x)
    {width : Rat} {first correct : Bool} (hmv : cfg.moved = true → cfg.indent = 0) (hcor : cfg.indent = 0 ∨ correct = first)
    {X Y fac : Nat → Rat} {mvA : Nat → List (Bytes × Bytes)} :
    ∀ (ls : List (TLine × Bool)) (j : Nat) (g : Geo) (mv : List (Bytes × Bytes)) (y : Rat), GeoAt first j g → (j = 0 → g = ⟨false, 0, first, correct⟩) →
      (∃ sx sy, MarkMoved mv sx sy ∧ |sx - codeBefore cfg g j| ≤ j * ε ∧ |sy - y| ≤ j * ε) →
      (∀ l ∈ ls, ∀ p ∈ l.1.parts, p.Ok M ∧ (∀ w ∈ p.words, w = c!" " ∨ ' ' ∉ w) ∧ (cfg.align = c!"j" → p.look.enc = none)) →
      (∀ l ∈ ls, 0 ≤ l.1.height) → 0 ≤ cfg.lineHeight →
      (∀ i l, ls[i]? = some l → mvA (j + i) = mvAt F cfg width ls g mv i ∧ fac (j + i) = factorAt cfg width first (j + i) l ∧
        X (j + i) = (numSum ((mvA (j + i)).map Prod.fst)).getD 0 ∧ Y (j + i) = (numSum ((mvA (j + i)).map Prod.snd)).getD 0) →
      (∀ i, i < ls.length → MarkMoved (mvA (j + i)) (X (j + i)) (Y (j + i))) ∧
      (∀ i l, ls[i]? = some l → |startAt cfg width first (j + i) l.1 - X (j + i)| ≤ ((j + i : Nat) + 1 : Rat) * ε) ∧
      List.Forall₂ (CloseMark ε) (codeMarks cfg width j g y ls)
        (runMarks X Y (fun j p => shownWidth M (F.rnd (p.spaceWidth M * (fac j - 1))) p) j (ls.map Prod.fst)) := by
  intro ls
  have hε : 0 ≤ ε := le_trans (abs_nonneg _) (hd.err 0)
  induction ls with
  | nil => intro j g mv y _ _ _ _ _ _ _; exact ⟨fun i hi => by simp at hi, fun i l hi => by simp at hi, .nil⟩
  | cons l ls ih =>
    intro j g mv y hg h0 ⟨sx, sy, hm, hx, hy⟩ hok hh hlh hA
    have hdy : 0 ≤ g.dy cfg l.1 := by
      have h1 := hh l (by simp)
      unfold Geo.dy
      split
      · exact mul_nonneg h1 hlh
      · split
        · split
          · split
            · exact le_of_lt (lt_of_le_of_lt h1 (by assumption))
            · exact h1
          · exact h1
        · exact h1
    obtain ⟨dx, dy, m1, m2, m3⟩ := lineMoves_moved hd hraw width l.1 g hdy
    obtain ⟨c1, c2⟩ := code_step cfg width first correct hmv hcor j g l.1 hg h0
    have hm' := hm.append m1
    obtain ⟨a1, a2, a3, a4⟩ := hA 0 l rfl
    simp only [Nat.add_zero] at a1 a2 a3 a4
    have hmv1 : mvA j = mv ++ lineMoves F cfg width l.1 g := a1
    have hX : X j = sx + dx := by rw [a3, hmv1, hm'.1]; rfl
    have hY : Y j = sy + dy := by rw [a4, hmv1, hm'.2]; rfl
    have ex : |g.x cfg width l.1 - X j| ≤ (j + 1 : Rat) * ε := by
      rw [hX, ← c1, show codeBefore cfg g j + g.dx cfg width l.1 - (sx + dx) = -((sx - codeBefore cfg g j) + (dx - g.dx cfg width l.1)) by ring, abs_neg]
      exact le_trans (abs_add_le _ _) (by linarith)
    have ey : |y - g.dy cfg l.1 - Y j| ≤ (j + 1 : Rat) * ε := by
      rw [hY, show y - g.dy cfg l.1 - (sy + dy) = -((sy - y) + (dy + g.dy cfg l.1)) by ring, abs_neg]
      exact le_trans (abs_add_le _ _) (by linarith)
    obtain ⟨r1, r3, r2⟩ := ih (j + 1) (g.next cfg width l.1) (mv ++ lineMoves F cfg width l.1 g) (y - g.dy cfg l.1) (GeoAt.next cfg width l.1) (by omega)
      ⟨sx + dx, sy + dy, hm', by rw [← c2, ← hX, abs_sub_comm]; push_cast; exact ex, by rw [← hY, abs_sub_comm]; push_cast; exact ey⟩
      (fun l hl => hok l (by simp [hl])) (fun l hl => hh l (by simp [hl])) hlh
      (fun i l' hi => by
        have := hA (i + 1) l' (by simpa using hi)
        rw [show j + (i + 1) = j + 1 + i by omega] at this
        exact this)
    refine ⟨?_, ?_, ?_⟩
    rotate_left
    · intro i l' hi
      cases i with
      | zero =>
        simp only [List.getElem?_cons_zero, Option.some.injEq] at hi
        subst hi
        simp only [Nat.add_zero]
        rw [← startAt_eq cfg width l.1 hg]
        exact ex
      | succ i =>
        have := r3 i l' (by simpa using hi)
        rw [show j + 1 + i = j + (i + 1) by omega] at this
        exact this
    rotate_left
    · intro i hi
      cases i with
      | zero =>
        simp only [Nat.add_zero]
        rw [hmv1, hX, hY]
        exact hm'
      | succ i =>
        have := r1 i (by simpa using hi)
        rw [show j + 1 + i = j + (i + 1) by omega] at this
        exact this
    · simp only [codeMarks, List.map_cons, runMarks]
      refine List.rel_append ?_ r2
      refine lineMarks_close hε ey l.1.parts _ _ 0 (by unfold lineBlanks partBlanks; simp) (by push_cast; simpa using ex) ?_
      intro p hp
      obtain ⟨o1, o2, o3⟩ := hok l (by simp) p hp
      rw [lineFactor_eq cfg width first j l g hg, ← a2]
      refine width_close hd.toDec o1 o2 ?_
      by_cases hj : cfg.align = c!"j"
      · exact .inl (o3 hj)
      · refine .inr ?_
        rw [a2]
        unfold factorAt
        rw [if_pos (.inl hj)]

/-! ### no line has a negative height -/

def TopInv (r : RunSt) : Prop := 0 ≤ r.cur.topMargin ∧ ∀ l ∈ r.lines, 0 ≤ l.1.topMargin

def TopPost (r : RunSt) : Prop := ∀ l ∈ r.lines, 0 ≤ l.1.topMargin

theorem topInv_accept (cfg : TCfg) {r : RunSt} {l : TLine} (b : Bool) (h : TopInv r) (ht : l.topMargin = r.cur.topMargin) : TopPost (accept cfg r l b) := by
  intro x hx
  simp only [Verif.accept, List.mem_append, List.mem_singleton] at hx
  rcases hx with hx | rfl
  · exact h.2 x hx
  · show 0 ≤ l.topMargin
    rw [ht]; exact h.1

theorem topInv_hyp (M : Metrics) (cfg : TCfg) (hl : 0 ≤ cfg.lineHeight) (width height : Rat) :
    RunHyp M cfg width height (fun r _ _ => TopInv r) TopPost where
  added := by
    intro r i k ws look ids w l' h _ _ _ _ hc
    cases hc with
    | first _ _ _ _ _ _ hm => exact ⟨by rw [hm.2.2]; exact h.1, h.2⟩
    | accum _ _ _ _ _ _ hm => exact ⟨by rw [hm.2.2]; exact h.1, h.2⟩
  keep := by
    intro r i k ws look ids w l' res h _ _ _ _ hc hres
    cases hc with
    | first => rcases hres with h | h <;> cases h
    | accum => rcases hres with h | h <;> cases h
    | finished => rcases hres with h | h <;> cases h
    | ignored => exact h
    | preadded _ _ _ _ _ _ hm => exact ⟨by rw [hm.2.2]; exact h.1, h.2⟩
  finOk := by
    intro r i k ws look ids w l' nl b h _ _ _ _ hc _ hh
    cases hc with
    | finished _ _ _ _ _ _ hm _ _ _ _ _ _ nt =>
      exact ⟨by rw [show (({ accept cfg r l' b with cur := { nl with maxWidth := width - cfg.listIndent } } : RunSt).cur.topMargin) = nl.topMargin from rfl, nt]; exact bottomLoop_nonneg _ _ (le_refl _),
        topInv_accept cfg b h hm.2.2⟩
  finBad := by intro r i k ws look ids w l' nl h _ _ _ _ _ _; exact h.2
  part := by
    intro r i k ws look ids h _ _
    obtain ⟨e1, e2, e3, e4, _, ⟨w, e6⟩⟩ := partStart_fields cfg look ids r
    exact ⟨by rw [e6]; exact h.1, by rw [e2]; exact h.2⟩
  partEnd := by intro r i ws look ids h _ _; exact h
  skip := by intro r i h _ _; exact h
  brOk := by
    intro r i h _ _ hh
    exact ⟨(hl : 0 ≤ (TLine.new width cfg.align cfg.lineHeight).topMargin), topInv_accept cfg (r := { r with pos := { r.pos with partAdded := i + 1, wordAdded := 0 } }) (l := closeLine true r.cur) true h rfl⟩
  brBad := by intro r i h _ _ _; exact h.2

/-- the height of a line is not negative -/
theorem textRun_heights (M : Metrics) (cfg : TCfg) (hl : 0 ≤ cfg.lineHeight) (width height : Rat) (pos : TPos)
    (hv : ValidPos cfg.content pos.lastPart pos.lastWord) : ∀ l ∈ (textRun M cfg width height pos).lines, 0 ≤ l.1.height := by
  have : TopPost (textRun M cfg width height pos) := by
    refine textRun_ind (topInv_hyp M cfg hl width height) pos hv.2 hv.1 ?_ (R := TopPost) (fun r hr => hr) ?_ ?_
    · exact ⟨hl, by simp [runInit]⟩
    · intro r hr _ hh; exact topInv_accept cfg (l := closeLine true r.cur) true hr rfl
    · intro r hr _ _; exact hr.2
  intro l hl
  rw [height_eq]
  exact le_trans (this l hl) (lineHeightOf_ge l.1)

/-! ### the items of a run and their moves -/

theorem runItems_moves {F : TFmt} {cfg : TCfg} {width : Rat} {first : Bool} {fac : Nat → Rat} {mvA : Nat → List (Bytes × Bytes)} :
    ∀ (ls : List (TLine × Bool)) (j : Nat) (g : Geo) (mv : List (Bytes × Bytes)), GeoAt first j g → (j = 0 → mv = []) →
      (∀ i l, ls[i]? = some l → mvA (j + i) = mvAt F cfg width ls g mv i ∧ fac (j + i) = factorAt cfg width first (j + i) l) →
      List.Forall₂ (fun (pl : Placed) it => (∀ p, pl.part = some p → it = ShItem.part p (fac pl.j) (mvA pl.j)) ∧
          (pl.part = none → ∃ lc d r, it = ShItem.bullet lc [(b!"0", d)] ∧ mvA pl.j = [(b!"0", d), (r, b!"0")]))
        (placedFrom cfg first j ls) (runItems F cfg width ls g mv) := by
  intro ls
  induction ls with
  | nil => intro j g mv _ _ _; exact .nil
  | cons l ls ih =>
    intro j g mv hg h0 hA
    obtain ⟨a1, a2⟩ := hA 0 l rfl
    simp only [Nat.add_zero] at a1 a2
    have hmv1 : mvA j = mv ++ lineMoves F cfg width l.1 g := a1
    rw [placedFrom, runItems]
    refine List.rel_append ?_ (ih (j + 1) _ _ (GeoAt.next cfg width l.1) (by omega) ?_)
    · unfold lineItems
      refine List.rel_append ?_ ?_
      · cases hlist : cfg.list with
        | none => simp
        | some lc =>
          by_cases hst : first = true ∧ j = 0
          · simp only [Option.isSome_some, hst, true_and, if_pos, hg.atStart.2 hst]
            refine .cons ⟨fun p hp => (by cases hp), fun _ => ⟨lc, _, bytesOf (F.raw (g.dx cfg width l.1)), by rw [h0 hst.2]; rfl, ?_⟩⟩ .nil
            show mvA 0 = _
            rw [← hst.2, hmv1, h0 hst.2]
            unfold lineMoves
            rw [if_pos ⟨by simp [hlist], hg.atStart.2 hst⟩]
            rfl
          · have : g.atStart = false := by
              by_contra hne
              exact hst (hg.atStart.1 (by simpa using hne))
            simp [hst, this]
      · have : ∀ ps : List TPart, List.Forall₂ (fun (pl : Placed) it => (∀ p, pl.part = some p → it = ShItem.part p (fac pl.j) (mvA pl.j)) ∧
              (pl.part = none → ∃ lc d r, it = ShItem.bullet lc [(b!"0", d)] ∧ mvA pl.j = [(b!"0", d), (r, b!"0")])) (ps.map fun p => ⟨j, l, some p⟩)
            (ps.map fun p => ShItem.part p (lineFactor cfg width l.2 l.1 g) (mv ++ lineMoves F cfg width l.1 g)) := by
          intro ps
          induction ps with
          | nil => exact .nil
          | cons p ps ih2 =>
            refine .cons ⟨?_, fun h => by cases h⟩ ih2
            intro q hq
            cases hq
            show _ = ShItem.part p (fac j) (mvA j)
            rw [hmv1, a2, lineFactor_eq cfg width first j l g hg]
        exact this _
    · intro i l' hi
      have := hA (i + 1) l' (by simpa using hi)
      rw [show j + (i + 1) = j + 1 + i by omega] at this
      exact this

/-! ### rectangles of ids -/

theorem dget_addIdRect (id i : Str) (r : IdRect) (d : List (Str × List IdRect)) :
    (dget id (addIdRect i r d)).getD [] = (dget id d).getD [] ++ List.replicate ([i].count id) r := by
  unfold addIdRect
  by_cases h : i = id
  · subst h
    simp [dget_dset_self]
  · have : [i].count id = 0 := by simp [h]
    rw [dget_dset_ne (by simpa using h), this]
    simp

/-- the order in which ids are noted -/
def firstsFrom (a l : List Str) : List Str := l.foldl (fun a i => if i ∈ a then a else a ++ [i]) a

theorem keys_partIds (F : TFmt) (p : TPart) (x y w : Rat) (d : List (Str × List IdRect)) :
    (partIds F p x y w d).map Prod.fst = firstsFrom (d.map Prod.fst) (p.ids.getD []) := by
  unfold partIds
  simp only []
  generalize (F.rnd x, F.rnd (y + p.look.st.rise - F.rnd p.look.st.size / 4), F.rnd (x + w),
        F.rnd (y + p.look.st.rise - F.rnd p.look.st.size / 4 + F.rnd p.look.st.size)) = r
  generalize p.ids.getD [] = l
  induction l generalizing d with
  | nil => rfl
  | cons i l ih =>
    rw [List.foldl_cons, ih, addIdRect, dset_keys]
    by_cases h : i ∈ d.map Prod.fst <;> simp only [h, firstsFrom, List.foldl_cons, if_true, if_false]

theorem fold_keys (F : TFmt) : ∀ (l : List Mark) (d : List (Str × List IdRect)),
    (l.foldl (fun d k => partIds F k.part k.x k.y k.w d) d).map Prod.fst = firstsFrom (d.map Prod.fst) (markIds l) := by
  intro l
  induction l with
  | nil => intro d; rfl
  | cons k l ih =>
    intro d
    rw [List.foldl_cons, ih, keys_partIds]
    simp [markIds, firstsFrom, List.foldl_append]

theorem firsts_nodup (l : List Str) : (firsts l).Nodup := by
  have : ∀ (l a : List Str), a.Nodup → (firstsFrom a l).Nodup := by
    intro l
    induction l with
    | nil => intro a h; exact h
    | cons i l ih =>
      intro a h
      refine ih _ ?_
      simp only []
      split
      · exact h
      · rename_i hi
        rw [List.nodup_append]
        refine ⟨h, by simp, ?_⟩
        intro x hx y hy
        rw [List.mem_singleton.1 hy]
        rintro rfl
        exact hi hx
  exact this l [] .nil

theorem mem_firsts {l : List Str} {i : Str} : i ∈ firsts l ↔ i ∈ l := by
  have : ∀ (l a : List Str), i ∈ firstsFrom a l ↔ i ∈ a ∨ i ∈ l := by
    intro l
    induction l with
    | nil => intro a; simp [firstsFrom]
    | cons j l ih =>
      intro a
      show i ∈ firstsFrom _ l ↔ _
      rw [ih]
      simp only []
      split
      · rename_i hj
        constructor
        · rintro (h | h)
          · exact .inl h
          · exact .inr (by simp [h])
        · rintro (h | h)
          · exact .inl h
          · rcases List.mem_cons.1 h with rfl | h
            · exact .inl hj
            · exact .inr h
      · simp [or_assoc]
  exact (this l []).trans (by simp)

theorem dget_partIds (F : TFmt) (p : TPart) (x y w : Rat) (id : Str) (d : List (Str × List IdRect)) :
    (dget id (partIds F p x y w d)).getD [] = (dget id d).getD [] ++ List.replicate ((p.ids.getD []).count id)
      (F.rnd x, F.rnd (y + p.look.st.rise - F.rnd p.look.st.size / 4), F.rnd (x + w),
        F.rnd (y + p.look.st.rise - F.rnd p.look.st.size / 4 + F.rnd p.look.st.size)) := by
  unfold partIds
  simp only []
  generalize (F.rnd x, F.rnd (y + p.look.st.rise - F.rnd p.look.st.size / 4), F.rnd (x + w),
        F.rnd (y + p.look.st.rise - F.rnd p.look.st.size / 4 + F.rnd p.look.st.size)) = r
  generalize p.ids.getD [] = l
  induction l generalizing d with
  | nil => simp
  | cons i l ih =>
    rw [List.foldl_cons, ih, dget_addIdRect, List.append_assoc, ← List.replicate_add]
    congr 2
    rw [show i :: l = [i] ++ l from rfl, List.count_append]

theorem fold_ids (F : TFmt) (id : Str) : ∀ (ks : List Mark) (d : List (Str × List IdRect)),
    (dget id (ks.foldl (fun d k => partIds F k.part k.x k.y k.w d) d)).getD [] = (dget id d).getD [] ++
      (marksOf id ks).map fun k => (F.rnd k.x, F.rnd (k.y + k.part.look.st.rise - F.rnd k.part.look.st.size / 4), F.rnd (k.x + k.w),
        F.rnd (k.y + k.part.look.st.rise - F.rnd k.part.look.st.size / 4 + F.rnd k.part.look.st.size)) := by
  intro ks
  induction ks with
  | nil => intro d; simp [marksOf]
  | cons k ks ih =>
    intro d
    rw [List.foldl_cons, ih, dget_partIds]
    unfold marksOf
    simp

/-- what a paragraph puts into the stream of a page, executed -/
theorem paragraph_run_cms {F : NumFmt} (hF : F.Ok) (px py : Rat) {text graphics : Str} {tops gops : List Op} (ht : OpsTo text tops) (hst : Sep (bytesOf text))
    (hg : OpsTo graphics gops) (hsg : Sep (bytesOf graphics)) :
    ∃ ops, OpsTo (paragraphStream F px py text graphics) ops ∧ ∀ (m : MS) gs1 evs1 gs2 mv evs2, m.path = [] → m.text = none →
      exec ⟨{ m.gs with cms := m.gs.cms ++ [[b!"1", b!"0", b!"0", b!"1", F.b px, F.b py]] }, m.gs :: m.stack, [], none⟩ gops =
        some (⟨gs1, m.gs :: m.stack, [], none⟩, evs1) →
      exec ⟨m.gs, m.stack, [], some ([b!"1", b!"0", b!"0", b!"1", F.b px, F.b py], [])⟩ tops = some (⟨gs2, m.stack, [], mv⟩, evs2) → mv.isSome →
      ∃ gs, (gs = m.gs ∨ gs = gs2) ∧ exec m ops = some (⟨gs, m.stack, [], none⟩, evs1 ++ evs2) := by
  have hn1 : NumText c!"1" := by unfold NumText; decide
  have hn0 : NumText c!"0" := by unfold NumText; decide
  have hnums : ∀ s ∈ [c!"1", c!"0", c!"0", c!"1", F.fmt px, F.fmt py], NumText s := by
    intro s hs
    simp only [List.mem_cons, List.not_mem_nil, or_false] at hs
    rcases hs with rfl | rfl | rfl | rfl | rfl | rfl
    · exact hn1
    · exact hn0
    · exact hn0
    · exact hn1
    · exact hF.1 _
    · exact hF.1 _
  obtain ⟨o1, a1, as, a2⟩ : ∃ o1, OpsTo (if graphics = [] then [] else c!" q 1 0 0 1 " ++ F.fmt px ++ c!" " ++ F.fmt py ++ c!" cm" ++ graphics ++ c!" Q") o1 ∧
      Sep (bytesOf (if graphics = [] then [] else c!" q 1 0 0 1 " ++ F.fmt px ++ c!" " ++ F.fmt py ++ c!" cm" ++ graphics ++ c!" Q")) ∧
      ∀ (m : MS) gs1 evs1, m.path = [] → m.text = none →
      exec ⟨{ m.gs with cms := m.gs.cms ++ [[b!"1", b!"0", b!"0", b!"1", F.b px, F.b py]] }, m.gs :: m.stack, [], none⟩ gops =
        some (⟨gs1, m.gs :: m.stack, [], none⟩, evs1) → exec m o1 = some (m, evs1) := by
    by_cases he : graphics = []
    · rw [if_pos he]
      refine ⟨[], OpsTo.nil, by simp [bytesOf], ?_⟩
      intro m gs1 evs1 _ _ hx
      rw [he] at hg
      rw [hg.unique OpsTo.nil] at hx
      simp only [exec, Option.some.injEq, Prod.mk.injEq] at hx ⊢
      exact ⟨trivial, hx.2⟩
    · rw [if_neg he]
      have e : c!" q 1 0 0 1 " ++ F.fmt px ++ c!" " ++ F.fmt py ++ c!" cm" ++ graphics ++ c!" Q" =
          ' ' :: (c!"q" ++ ' ' :: (numsOp [c!"1", c!"0", c!"0", c!"1", F.fmt px, F.fmt py] c!"cm" ++ (graphics ++ ' ' :: c!"Q"))) := by simp [numsOp]
      rw [e]
      refine ⟨_, ((opsTo_word c!"q" (by decide) (by decide)).append_space ((numsOp_ops hnums (by decide) (by decide)).append
        (hg.append_space (opsTo_word c!"Q" (by decide) (by decide))) ?_)).space, sep_space _, ?_⟩
      · rw [show bytesOf (graphics ++ ' ' :: c!"Q") = bytesOf graphics ++ bytesOf (' ' :: c!"Q") by simp [bytesOf]]
        cases hbg : bytesOf graphics with
        | nil => exact sep_space _
        | cons c t => rw [hbg] at hsg; exact hsg
      · rintro ⟨g0, st, pa, te⟩ gs1 evs1 hp ht hx
        obtain rfl : pa = [] := hp
        obtain rfl : te = none := ht
        have e1 := exec_one (step_q (m := ⟨g0, st, [], none⟩) rfl rfl)
        have e2 := exec_one (step_cm (m := ⟨g0, g0 :: st, [], none⟩) (a := b!"1") (b := b!"0") (c := b!"0") (d := b!"1") (e := F.b px) (f := F.b py) rfl rfl)
        have e3 := exec_one (step_Q (m := ⟨gs1, g0 :: st, [], none⟩) rfl rfl rfl)
        have := exec_append_of e1 (exec_append_of e2 (exec_append_of hx e3))
        rw [List.append_nil] at this
        exact this
  obtain ⟨o2, b1, bs, b2⟩ : ∃ o2, OpsTo (if text = [] then [] else c!" BT 1 0 0 1 " ++ F.fmt px ++ c!" " ++ F.fmt py ++ c!" Tm" ++ text ++ c!" ET") o2 ∧
      Sep (bytesOf (if text = [] then [] else c!" BT 1 0 0 1 " ++ F.fmt px ++ c!" " ++ F.fmt py ++ c!" Tm" ++ text ++ c!" ET")) ∧
      ∀ (m : MS) gs2 mv evs2, m.path = [] → m.text = none →
      exec ⟨m.gs, m.stack, [], some ([b!"1", b!"0", b!"0", b!"1", F.b px, F.b py], [])⟩ tops = some (⟨gs2, m.stack, [], mv⟩, evs2) → mv.isSome →
      ∃ gs, (gs = m.gs ∨ gs = gs2) ∧ exec m o2 = some (⟨gs, m.stack, [], none⟩, evs2) := by
    by_cases he : text = []
    · rw [if_pos he]
      refine ⟨[], OpsTo.nil, by simp [bytesOf], ?_⟩
      rintro ⟨g0, st, pa, te⟩ gs2 mv evs2 hp htt hx _
      obtain rfl : pa = [] := hp
      obtain rfl : te = none := htt
      rw [he] at ht
      rw [ht.unique OpsTo.nil] at hx
      simp only [exec, Option.some.injEq, Prod.mk.injEq] at hx
      exact ⟨g0, Or.inl rfl, by simp only [exec]; rw [hx.2]⟩
    · rw [if_neg he]
      have e : c!" BT 1 0 0 1 " ++ F.fmt px ++ c!" " ++ F.fmt py ++ c!" Tm" ++ text ++ c!" ET" =
          ' ' :: (c!"BT" ++ ' ' :: (numsOp [c!"1", c!"0", c!"0", c!"1", F.fmt px, F.fmt py] c!"Tm" ++ (text ++ ' ' :: c!"ET"))) := by simp [numsOp]
      rw [e]
      refine ⟨_, ((opsTo_word c!"BT" (by decide) (by decide)).append_space ((numsOp_ops hnums (by decide) (by decide)).append
        (ht.append_space (opsTo_word c!"ET" (by decide) (by decide))) ?_)).space, sep_space _, ?_⟩
      · rw [show bytesOf (text ++ ' ' :: c!"ET") = bytesOf text ++ bytesOf (' ' :: c!"ET") by simp [bytesOf]]
        cases hbg : bytesOf text with
        | nil => exact sep_space _
        | cons c t => rw [hbg] at hst; exact hst
      · rintro ⟨g0, st, pa, te⟩ gs2 mv evs2 hp htt hx hmv
        obtain rfl : pa = [] := hp
        obtain rfl : te = none := htt
        obtain ⟨t, rfl⟩ := Option.isSome_iff_exists.1 hmv
        have e1 := exec_one (step_BT (m := ⟨g0, st, [], none⟩) rfl rfl)
        have e2 := exec_one (step_Tm (m := ⟨g0, st, [], some ([], [])⟩) (a := b!"1") (b := b!"0") (c := b!"0") (d := b!"1") (e := F.b px) (f := F.b py) rfl)
        have e3 := exec_one (step_ET (m := ⟨gs2, st, [], some t⟩) rfl)
        have := exec_append_of e1 (exec_append_of e2 (exec_append_of hx e3))
        rw [List.append_nil] at this
        exact ⟨gs2, Or.inr rfl, this⟩
  refine ⟨o1 ++ o2, a1.append b1 bs, ?_⟩
  intro m gs1 evs1 gs2 mv evs2 hp htt h1 h2 h3
  obtain ⟨gs, hor, hgs⟩ := b2 m gs2 mv evs2 hp htt h2 h3
  exact ⟨gs, hor, exec_append_of (a2 m gs1 evs1 hp htt h1) hgs⟩

/-- what a paragraph puts into the stream of a page, executed -/
theorem paragraph_run {F : NumFmt} (hF : F.Ok) (px py : Rat) {text graphics : Str} {tops gops : List Op} (ht : OpsTo text tops) (hst : Sep (bytesOf text))
    (hg : OpsTo graphics gops) (hsg : Sep (bytesOf graphics)) :
    ∃ ops, OpsTo (paragraphStream F px py text graphics) ops ∧ ∀ (m : MS) gs1 evs1 gs2 mv evs2, m.path = [] → m.text = none →
      exec ⟨{ m.gs with cms := m.gs.cms ++ [[b!"1", b!"0", b!"0", b!"1", F.b px, F.b py]] }, m.gs :: m.stack, [], none⟩ gops =
        some (⟨gs1, m.gs :: m.stack, [], none⟩, evs1) →
      exec ⟨m.gs, m.stack, [], some ([b!"1", b!"0", b!"0", b!"1", F.b px, F.b py], [])⟩ tops = some (⟨gs2, m.stack, [], mv⟩, evs2) → mv.isSome →
      ∃ gs, exec m ops = some (⟨gs, m.stack, [], none⟩, evs1 ++ evs2) := by
  obtain ⟨ops, h1, h2⟩ := paragraph_run_cms hF px py ht hst hg hsg
  refine ⟨ops, h1, fun m gs1 evs1 gs2 mv evs2 a b c d e => ?_⟩
  obtain ⟨gs, -, h⟩ := h2 m gs1 evs1 gs2 mv evs2 a b c d e
  exact ⟨gs, h⟩

end Verif
