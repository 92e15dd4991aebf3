import Verif.Props.C67_TextMarks
/-! C68: where the baselines of a run are. -/
namespace Verif
open Spec

/-- how deep the baseline of the `j`-th line of a run is: the first line needs its height, or the size of the text of its list if that is
greater; every other line its height, scaled by the line height -/
def lineDepth (cfg : TCfg) (first : Bool) (ls : List (TLine × Bool)) (j : Nat) : Rat := match ls with
  | [] => 0
  | l :: ls => max (lineHeightOf l.1) (if first then (cfg.list.map fun lc => lc.state.size).getD 0 else 0) +
      ((ls.take j).map fun x => lineHeightOf x.1 * cfg.lineHeight).sum

/-- an event shows something on a baseline -/
def BaseAt (ε : Rat) (depth : Nat → Rat) (pl : Placed) (e : Event) : Prop :=
  ∃ gs tm mv str y, e = .text gs tm mv str ∧ numSum (mv.map Prod.snd) = some y ∧ |y + depth pl.j| ≤ (pl.j + 1) * ε

/-- the depth of lines in the code -/
def codeDepth (cfg : TCfg) (width : Rat) : List (TLine × Bool) → Geo → Nat → Rat
  | [], _, _ => 0
  | l :: _, g, 0 => g.dy cfg l.1
  | l :: ls, g, i + 1 => g.dy cfg l.1 + codeDepth cfg width ls (g.next cfg width l.1) i

theorem codeDepth_started (cfg : TCfg) (width : Rat) : ∀ (ls : List (TLine × Bool)) (g : Geo) (i : Nat) (l : TLine × Bool), g.started = true → ls[i]? = some l →
    codeDepth cfg width ls g i = ((ls.take (i + 1)).map fun x => lineHeightOf x.1 * cfg.lineHeight).sum := by
  intro ls
  induction ls with
  | nil => intro g i l _ h; simp at h
  | cons l ls ih =>
    intro g i l' hg h
    have e : g.dy cfg l.1 = lineHeightOf l.1 * cfg.lineHeight := by unfold Geo.dy; rw [if_pos hg, height_eq]
    cases i with
    | zero => simp [codeDepth, e]
    | succ i =>
      rw [codeDepth, ih _ i l' rfl (by simpa using h), e]
      simp

theorem codeDepth_eq (cfg : TCfg) (width : Rat) (first correct : Bool) {ls : List (TLine × Bool)} (hn : ∀ l ∈ ls, 0 ≤ lineHeightOf l.1) {i : Nat} {l : TLine × Bool} (h : ls[i]? = some l) :
    codeDepth cfg width ls ⟨false, 0, first, correct⟩ i = lineDepth cfg first ls i := by
  cases ls with
  | nil => simp at h
  | cons l0 ls =>
    have h0 : 0 ≤ lineHeightOf l0.1 := hn l0 (by simp)
    have e : (⟨false, 0, first, correct⟩ : Geo).dy cfg l0.1 = max (lineHeightOf l0.1) (if first then (cfg.list.map fun lc => lc.state.size).getD 0 else 0) := by
      unfold Geo.dy
      simp only [Bool.false_eq_true, if_false, height_eq]
      cases first with
      | false => simp [h0]
      | true =>
        cases hl : cfg.list with
        | none => simp [h0]
        | some lc =>
          simp only [if_true, Option.map_some, Option.getD_some]
          by_cases hc : lc.state.size > lineHeightOf l0.1
          · rw [if_pos hc, max_eq_right (le_of_lt hc)]
          · rw [if_neg hc, max_eq_left (not_lt.1 hc)]
    cases i with
    | zero => simp [codeDepth, lineDepth, e]
    | succ i =>
      rw [codeDepth, codeDepth_started cfg width ls _ i l rfl (by simpa using h), e]
      rfl

theorem mvAt_down {F : TFmt} {ε : Rat} (hd : F.Signed ε) {cfg : TCfg} {width : Rat} (hlh : 0 ≤ cfg.lineHeight) :
    ∀ (ls : List (TLine × Bool)) (g : Geo) (mv : List (Bytes × Bytes)) (n : Nat) (D : Rat), (∀ l ∈ ls, 0 ≤ l.1.height) →
      (∃ s, numSum (mv.map Prod.snd) = some s ∧ |s + D| ≤ n * ε) →
      ∀ i l, ls[i]? = some l → ∃ s, numSum ((mvAt F cfg width ls g mv i).map Prod.snd) = some s ∧ |s + (D + codeDepth cfg width ls g i)| ≤ (n + i + 1 : Rat) * ε := by
  intro ls
  induction ls with
  | nil => intro g mv n D _ _ i l h; simp at h
  | cons l ls ih =>
    intro g mv n D hh ⟨s, h1, h2⟩ i l' hi
    have hdy : 0 ≤ g.dy cfg l.1 := by
      have h1 := hh l (by simp)
      unfold Geo.dy
      split
      · exact mul_nonneg h1 hlh
      · split
        · split
          · split
            · exact le_of_lt (lt_of_le_of_lt h1 (by assumption))
            · exact h1
          · exact h1
        · exact h1
    have hzero : numVal b!"0" = some 0 := by decide +kernel
    have hmoves : numSum ((lineMoves F cfg width l.1 g).map Prod.snd) = some (-F.rnd (g.dy cfg l.1)) := by
      unfold lineMoves numSum
      split <;> simp [hzero, hd.down _ hdy]
    have hs := numSum_append _ _ _ _ h1 hmoves
    have herr : |s + -F.rnd (g.dy cfg l.1) + (D + g.dy cfg l.1)| ≤ (n + 1 : Rat) * ε := by
      have := hd.err (g.dy cfg l.1)
      rw [show s + -F.rnd (g.dy cfg l.1) + (D + g.dy cfg l.1) = (s + D) + -(F.rnd (g.dy cfg l.1) - g.dy cfg l.1) by ring]
      refine le_trans (abs_add_le _ _) ?_
      rw [abs_neg]
      linarith
    cases i with
    | zero =>
      refine ⟨_, by rw [mvAt, List.map_append]; exact hs, ?_⟩
      simpa [codeDepth] using herr
    | succ i =>
      obtain ⟨s', k1, k2⟩ := ih (g.next cfg width l.1) (mv ++ lineMoves F cfg width l.1 g) (n + 1) (D + g.dy cfg l.1) (fun l hl => hh l (by simp [hl]))
        ⟨_, by rw [List.map_append]; exact hs, by push_cast; exact herr⟩ i l' (by simpa using hi)
      refine ⟨s', k1, ?_⟩
      rw [codeDepth, ← add_assoc D]
      refine le_trans k2 (le_of_eq ?_)
      push_cast
      ring

/-- what is shown of a run is on the baselines of its lines -/
theorem run_baselines (F : TFmt) (hF : F.Ok) (ε : Rat) (hd : F.Signed ε) (E : Encs) (hE : E.Ok) (refOf : Str → Str → Str)
    (M : Metrics) (cfg : TCfg) (enc : Option (Str × Str)) (hs : StylesOk F refOf cfg) (hlt : ListTextOk cfg enc) (hlh : 0 ≤ cfg.lineHeight)
    (width height : Rat) (pos : TPos) (hr : TReach M cfg pos) (correct : Bool) (o : OutSt)
    (h : textOut F M E cfg enc width height pos correct = .ok o) (b : Bytes) (hb : encodeLatin o.text = .ok b) :
    ∃ ops, opsOf b = some ops ∧ ∀ (m : MS) (tm : List Bytes), m.path = [] → m.text = some (tm, []) →
      ∃ m' evs, exec m ops = some (m', evs) ∧
        List.Forall₂ (BaseAt ε (lineDepth cfg pos.isFirstLine (textRun M cfg width height pos).lines))
          (placedFrom cfg pos.isFirstLine 0 (textRun M cfg width height pos).lines) evs := by
  obtain ⟨hl, rfl⟩ := encodeLatin_inv hb
  obtain ⟨_, hp⟩ := hr.post
  have hu := textRun_used M cfg width height pos hp.lastV
  have hheights := textRun_heights M cfg hlh width height pos hp.lastV
  obtain ⟨ops, h1, _, h3⟩ := textOut_ops hF hE (hs.cfgOk hlt) (by
    intro l hl p hp
    exact hs.looks _ (hu.lk l hl _ (List.mem_map_of_mem hp)).1) h hl
  generalize (textRun M cfg width height pos).lines = ls at *
  refine ⟨ops, h1.ops, ?_⟩
  intro m tm hm hmt
  obtain ⟨gs, evs, e1, e2⟩ := h3 m tm [] hm hmt
  refine ⟨_, evs, e1, ?_⟩
  have hzero : numVal b!"0" = some 0 := by decide +kernel
  let g0 : Geo := ⟨false, 0, pos.isFirstLine, correct⟩
  have hdown := mvAt_down hd (width := width) hlh ls g0 [] 0 0 hheights ⟨0, rfl, by simp⟩
  have hpl := runItems_moves (F := F) (cfg := cfg) (width := width) (first := pos.isFirstLine)
    (fac := fun j => match ls[j]? with
      | some l => factorAt cfg width pos.isFirstLine j l
      | none => 1) (mvA := mvAt F cfg width ls g0 []) ls 0 g0 [] ⟨fun _ => ⟨rfl, rfl⟩, fun h => by omega⟩ (fun _ => rfl) (by
      intro i l hi
      simp only [Nat.zero_add, hi]
      exact ⟨trivial, trivial⟩)
  refine forall2_comp ?_ (forall2_mem_right hpl (placed_line cfg pos.isFirstLine ls)) e2
  rintro pl it e ⟨⟨hit1, hit2⟩, hjl⟩ hev
  obtain ⟨y, y1, y2⟩ := hdown pl.j pl.line hjl
  rw [codeDepth_eq cfg width pos.isFirstLine correct (fun l hl => by rw [← height_eq]; exact hheights l hl) hjl] at y2
  have y3 : |y + lineDepth cfg pos.isFirstLine ls pl.j| ≤ (pl.j + 1) * ε := by simpa using y2
  cases hpp : pl.part with
  | some p =>
    rw [hit1 p hpp] at hev
    obtain ⟨gs', s, rfl, -⟩ := hev
    exact ⟨gs', tm, _, _, y, rfl, y1, y3⟩
  | none =>
    obtain ⟨lc, d, r, rfl, hmva⟩ := hit2 hpp
    obtain ⟨gs', s, rfl, -⟩ := hev
    refine ⟨gs', tm, _, _, y, rfl, ?_, y3⟩
    rw [hmva] at y1
    unfold numSum at y1 ⊢
    cases hd' : numVal d with
    | none => simp [hd'] at y1
    | some v => simpa [hd', hzero] using y1

/-- the depths of the lines of a run are inside its height -/
theorem lineDepth_inside (M : Metrics) (cfg : TCfg) (hlh : 0 ≤ cfg.lineHeight) (width height : Rat) (pos : TPos) (hr : TReach M cfg pos) :
    (∀ lc l, cfg.list = some lc → pos.isFirstLine = true → (textRun M cfg width height pos).lines[0]? = some l → lc.state.size ≤ lineHeightOf l.1) →
        (∀ j, j < (textRun M cfg width height pos).lines.length →
          0 ≤ lineDepth cfg pos.isFirstLine (textRun M cfg width height pos).lines j ∧
          lineDepth cfg pos.isFirstLine (textRun M cfg width height pos).lines j ≤ (textRun M cfg width height pos).curHeight ∧
          (j + 1 = (textRun M cfg width height pos).lines.length →
            lineDepth cfg pos.isFirstLine (textRun M cfg width height pos).lines j = (textRun M cfg width height pos).curHeight)) ∧
        (0 ≤ height → (textRun M cfg width height pos).curHeight ≤ height) := by
  intro hbul
  obtain ⟨c1, c2⟩ := C22_height M cfg width height pos hr
  obtain ⟨_, hp⟩ := hr.post
  have hheights := textRun_heights M cfg hlh width height pos hp.lastV
  refine ⟨?_, c2⟩
  intro j hj
  rw [c1]
  generalize (textRun M cfg width height pos).lines = ls at *
  cases ls with
  | nil => simp at hj
  | cons l ls =>
    have h0 : 0 ≤ lineHeightOf l.1 := by rw [← height_eq]; exact hheights l (by simp)
    have e : max (lineHeightOf l.1) (if pos.isFirstLine then (cfg.list.map fun lc => lc.state.size).getD 0 else 0) = lineHeightOf l.1 := by
      apply max_eq_left
      split
      · rename_i hf
        cases hl : cfg.list with
        | none => simpa using h0
        | some lc => simpa using hbul lc l hl hf rfl
      · exact h0
    have hnn : ∀ x ∈ ls, 0 ≤ lineHeightOf x.1 * cfg.lineHeight := by
      intro x hx
      refine mul_nonneg ?_ hlh
      rw [← height_eq]
      exact hheights x (by simp [hx])
    have hsum : ∀ k : List (TLine × Bool), (∀ x ∈ k, x ∈ ls) → 0 ≤ (k.map fun x => lineHeightOf x.1 * cfg.lineHeight).sum := by
      intro k hk
      refine List.sum_nonneg ?_
      intro v hv
      obtain ⟨x, hx, rfl⟩ := List.mem_map.1 hv
      exact hnn x (hk x hx)
    have h3 := hsum (ls.take j) fun x hx => List.mem_of_mem_take hx
    have h4 := hsum (ls.drop j) fun x hx => List.mem_of_mem_drop hx
    have h5 : (ls.map fun x => lineHeightOf x.1 * cfg.lineHeight).sum =
        ((ls.take j).map fun x => lineHeightOf x.1 * cfg.lineHeight).sum + ((ls.drop j).map fun x => lineHeightOf x.1 * cfg.lineHeight).sum := by
      rw [← List.sum_append, ← List.map_append, List.take_append_drop]
    simp only [lineDepth, linesHeight, e]
    refine ⟨by linarith, by linarith, ?_⟩
    intro hlast
    rw [List.take_of_length_le (by simp at hlast; omega)]

/-- C68: the text of a run is shown on baselines that are as deep as the lines are high: the first one by the height of the first line (or by the
size of the text of the list, if that is greater), and the others by the heights of their lines, scaled by the line height, one after the other.
If the text of the list is not higher than the first line, then no baseline is below the reported height, the last one is at the reported
height, and so all are inside the rectangle (up to rounding). -/
theorem C68_baselines_partial (F : TFmt) (hF : F.Ok) (ε : Rat) (hd : F.Signed ε) (E : Encs) (hE : E.Ok) (refOf : Str → Str → Str)
    (M : Metrics) (cfg : TCfg) (enc : Option (Str × Str)) (hs : StylesOk F refOf cfg) (hlt : ListTextOk cfg enc) (hlh : 0 ≤ cfg.lineHeight)
    (width height : Rat) (pos : TPos) (hr : TReach M cfg pos) (correct : Bool) (o : OutSt)
    (h : textOut F M E cfg enc width height pos correct = .ok o) (b : Bytes) (hb : encodeLatin o.text = .ok b) :
    ∃ ops, opsOf b = some ops ∧ (∀ (m : MS) (tm : List Bytes), m.path = [] → m.text = some (tm, []) →
      ∃ m' evs, exec m ops = some (m', evs) ∧
        List.Forall₂ (BaseAt ε (lineDepth cfg pos.isFirstLine (textRun M cfg width height pos).lines))
          (placedFrom cfg pos.isFirstLine 0 (textRun M cfg width height pos).lines) evs) ∧
      ((∀ lc l, cfg.list = some lc → pos.isFirstLine = true → (textRun M cfg width height pos).lines[0]? = some l → lc.state.size ≤ lineHeightOf l.1) →
        (∀ j, j < (textRun M cfg width height pos).lines.length →
          0 ≤ lineDepth cfg pos.isFirstLine (textRun M cfg width height pos).lines j ∧
          lineDepth cfg pos.isFirstLine (textRun M cfg width height pos).lines j ≤ (textRun M cfg width height pos).curHeight ∧
          (j + 1 = (textRun M cfg width height pos).lines.length →
            lineDepth cfg pos.isFirstLine (textRun M cfg width height pos).lines j = (textRun M cfg width height pos).curHeight)) ∧
        (0 ≤ height → (textRun M cfg width height pos).curHeight ≤ height)) := by
  obtain ⟨ops, h1, h2⟩ := run_baselines F hF ε hd E hE refOf M cfg enc hs hlt hlh width height pos hr correct o h b hb
  exact ⟨ops, h1, h2, lineDepth_inside M cfg hlh width height pos hr⟩

/-! ### examples and a counterexample -/

/-- the heights at which a run shows something, and what it reports -/
def exBaselines (cfg : TCfg) (width height : Rat) (pos : TPos) : Option (List (Bytes × Option Rat) × Rat) :=
  match textOut sampleTFmt sampleM (fun _ _ => none) cfg none width height pos true with
  | .error _ => none
  | .ok o => (execStream ⟨sampleGS, [], [], some ([], [])⟩ (bytesOf o.text)).map fun r => (r.2.map fun
    | .text _ _ mv s => (s, numSum (mv.map Prod.snd))
    | _ => ([], none), (textRun sampleM cfg width height pos).curHeight)

/-- two lines with a line height of 2: the first one is 12 high (10 and a margin of 2), the second one 20 -/
example : exBaselines { ex3Par c!"aa bb" 0 c!"l" none none with lineHeight := 2 } 30 100 TPos.init =
    some ([(b!"aa", some (-12)), (b!"bb", some (-32))], 32) := by decide +kernel

/-- the text of a list is on the baseline of the first line -/
example : exBaselines (ex3Par c!"aa" 0 c!"l" (some ⟨c!"1.", 7, sampleSt⟩) none) 100 100 TPos.init =
    some ([(b!"1.", some (-11)), (b!"aa", some (-11))], 11) := by decide +kernel

/-- **C68 is false for lists with a greater text**: the text of the list has 30 points, and so the line is shown 30 below the top; but the run reports a
height of 11, and takes place in a rectangle with a height of 12. -/
theorem C68_list_text_false :
    exBaselines (ex3Par c!"aa" 0 c!"l" (some ⟨c!"1.", 7, { sampleSt with size := 30 }⟩) none) 100 12 TPos.init =
      some ([(b!"1.", some (-30)), (b!"aa", some (-30))], 11) := by decide +kernel

end Verif
