import Verif.Lemmas.TextMarksPlace
/-! C67: backgrounds, underlines and the rectangles of links and labels are where the text is shown. -/
namespace Verif
open Spec

/-- the matrix that moves to `(px, py)` -/
def placeAt (F : TFmt) (px py : Rat) : List Bytes := [b!"1", b!"0", b!"0", b!"1", F.b px, F.b py]

/-- an event shows a part on its line, which begins at `(X j, Y j)` from the place of the paragraph, with the word spacing `tw`;
the text of the list is at the left edge -/
def ShownAt (place : List Bytes) (cms : List (List Bytes)) (X Y : Nat → Rat) (tw : Nat → TPart → Rat) (pl : Placed) (e : Event) : Prop :=
  ∃ gs mv str, e = .text gs place mv str ∧ gs.cms = cms ∧
    numSum (mv.map Prod.fst) = some (if pl.part = none then 0 else X pl.j) ∧ numSum (mv.map Prod.snd) = some (Y pl.j) ∧
    ∀ p, pl.part = some p → numVal gs.wordSpace = some (tw pl.j p)

/-- the error of the numbers of a mark: the moves to the lines so far and the word spacings are rounded, and the numbers themselves -/
def markErr (ε : Rat) (k : Mark) : Rat := (k.j + 3 + lineBlanks k.line) * ε

theorem abs_near {a b c e d : Rat} (h1 : |a - b| ≤ e) (h2 : |b - c| ≤ d) : |a - c| ≤ e + d := by
  rw [show a - c = (a - b) + (b - c) by ring]
  exact le_trans (abs_add_le _ _) (add_le_add h1 h2)

/-- C67, with where the lines begin and what the word spacing is -/
theorem run_marks (F : TFmt) (hF : F.Ok) (ε : Rat) (hd : F.Signed ε) (E : Encs) (hE : E.Ok) (refOf : Str → Str → Str)
    (M : Metrics) (cfg : TCfg) (enc : Option (Str × Str)) (hs : StylesOk F refOf cfg) (hlt : ListTextOk cfg enc)
    (hmv : cfg.align = c!"r" ∨ cfg.align = c!"c" → cfg.indent = 0)
    (hraw : cfg.list ≠ none → ∀ x, numVal (bytesOf (F.raw x)) = some x) (hlh : 0 ≤ cfg.lineHeight)
    (hlk : ∀ x ∈ contentLooks cfg.content, x.Ok ∧ (cfg.align = c!"j" → x.enc = none))
    (hw : ∀ w ∈ contentWords cfg.content, w = c!" " ∨ ' ' ∉ w)
    (width height : Rat) (pos : TPos) (hr : TReach M cfg pos) (correct : Bool)
    (hcor : cfg.indent = 0 ∨ correct = pos.isFirstLine) (o : OutSt)
    (h : textOut F M E cfg enc width height pos correct = .ok o) (px py : Rat) (b : Bytes)
    (hb : encodeLatin (paragraphStream F.toNumFmt px py o.text o.graphics) = .ok b) :
    ∃ (X Y : Nat → Rat) (tw : Nat → TPart → Rat) (marks : List Mark),
      marks = runMarks X Y (fun j p => shownWidth M (tw j p) p) 0 ((textRun M cfg width height pos).lines.map Prod.fst) ∧
      (∀ m : MS, m.path = [] → m.text = none → ∃ gs drawn shown, execStream m b = some (⟨gs, m.stack, [], none⟩, drawn ++ shown) ∧
        List.Forall₂ (DecoPainted F.comps (markErr ε) { m.gs with cms := m.gs.cms ++ [placeAt F px py] }) (marks.flatMap Mark.decos) drawn ∧
        List.Forall₂ (ShownAt (placeAt F px py) m.gs.cms X Y tw) (placedFrom cfg pos.isFirstLine 0 (textRun M cfg width height pos).lines) shown) ∧
      (∀ id, List.Forall₂ (RectAround (markErr ε)) (marksOf id marks) ((dget id o.ids).getD [])) ∧ o.ids.map Prod.fst = firsts (markIds marks) ∧
      ∀ j l, (textRun M cfg width height pos).lines[j]? = some l → |startAt cfg width pos.isFirstLine j l.1 - X j| ≤ ((j : Rat) + 1) * ε ∧
        ∀ p, |tw j p - p.spaceWidth M * (factorAt cfg width pos.isFirstLine j l - 1)| ≤ ε := by
  obtain ⟨hl, rfl⟩ := encodeLatin_inv hb
  obtain ⟨_, hp⟩ := hr.post
  have hu := textRun_used M cfg width height pos hp.lastV
  have hlines := textRun_lines M cfg width height pos hp.lastV
  have hheights := textRun_heights M cfg hlh width height pos hp.lastV
  have hlat : ∀ c ∈ o.text, isLatin c = true := by
    intro c hc
    apply hl
    unfold paragraphStream
    rw [if_neg (c := o.text = []) (by rintro he; rw [he] at hc; simp at hc)]
    simp [hc]
  have hlooks : ∀ l ∈ (textRun M cfg width height pos).lines, ∀ p ∈ l.1.parts, p.look ∈ contentLooks cfg.content := fun l hl p hp =>
    (hu.lk l hl _ (List.mem_map_of_mem hp)).1
  obtain ⟨tops, t1, t2, t3⟩ := textOut_ops hF hE (hs.cfgOk hlt) (fun l hl p hp => hs.looks _ (hlooks l hl p hp)) h hlat
  obtain ⟨i1, gt, i2, -, gops, i3, i4, i5⟩ := streamLines_marks hF _ 0 _ o (fun l hl p hp => (hlk _ (hlooks l hl p hp)).1) h
  have hgt : o.graphics = gt := by rw [i2]; rfl
  subst hgt
  have hok := hlines.ok
  have hws := hlines.words
  have hparts : ∀ l ∈ (textRun M cfg width height pos).lines, ∀ p ∈ l.1.parts, p.Ok M ∧ (∀ w ∈ p.words, w = c!" " ∨ ' ' ∉ w) ∧ (cfg.align = c!"j" → p.look.enc = none) := by
    intro l hl p hp
    refine ⟨hok l hl p hp, ?_, (hlk _ (hlooks l hl p hp)).2⟩
    intro w hwm
    rcases hws l hl (w, p.look, p.ids) (by
      unfold pieces
      rw [List.mem_flatMap]
      exact ⟨p, hp, List.mem_map.2 ⟨w, hwm, rfl⟩⟩) with e | e
    · exact Or.inl e
    · exact hw w e
  have hε : 0 ≤ ε := le_trans (abs_nonneg _) (hd.err 0)
  have hmv' : cfg.moved = true → cfg.indent = 0 := fun h => hmv (by simpa [TCfg.moved] using h)
  generalize (textRun M cfg width height pos).lines = ls at *
  let g0 : Geo := ⟨false, 0, pos.isFirstLine, correct⟩
  let mvA : Nat → List (Bytes × Bytes) := fun j => mvAt F cfg width ls g0 [] j
  let fac : Nat → Rat := fun j => match ls[j]? with
    | some l => factorAt cfg width pos.isFirstLine j l
    | none => 1
  let X : Nat → Rat := fun j => (numSum ((mvA j).map Prod.fst)).getD 0
  let Y : Nat → Rat := fun j => (numSum ((mvA j).map Prod.snd)).getD 0
  let tw : Nat → TPart → Rat := fun j p => F.rnd (p.spaceWidth M * (fac j - 1))
  have hg0 : GeoAt pos.isFirstLine 0 g0 := ⟨fun _ => ⟨rfl, rfl⟩, fun h => by omega⟩
  have hfac : ∀ i l, ls[i]? = some l → fac i = factorAt cfg width pos.isFirstLine i l := by
    intro i l hi
    simp only [fac, hi]
  obtain ⟨hmoved, hstart, hclose⟩ := codeMarks_close (X := X) (Y := Y) (fac := fac) (mvA := mvA) hd hraw hmv' hcor (M := M) (width := width) ls 0 g0 [] 0 hg0 (fun _ => rfl)
    ⟨0, 0, ⟨rfl, rfl⟩, by simp [codeBefore], by simp⟩ hparts hheights hlh (by
      intro i l hi
      simp only [Nat.zero_add]
      exact ⟨rfl, hfac i l hi, rfl, rfl⟩)
  simp only [Nat.zero_add] at hmoved hstart
  refine ⟨X, Y, tw, _, rfl, ?_, ?_, ?_, ?_⟩
  · intro m hm hmt
    obtain ⟨ops, q1, q2⟩ := paragraph_run hF.1 px py t1 t2 i3 i4
    obtain ⟨gs1, evs1, d1, -, d2, -, -, d3⟩ := i5 ⟨{ m.gs with cms := m.gs.cms ++ [placeAt F px py] }, m.gs :: m.stack, [], none⟩
      (by constructor <;> intro c hc <;> simp [outInit] at hc) ⟨rfl, rfl, by simp [outInit], by simp [outInit], by simp [outInit]⟩
    obtain ⟨gs2, evs2, e1, e2⟩ := t3 ⟨m.gs, m.stack, [], some (placeAt F px py, [])⟩ (placeAt F px py) [] rfl rfl
    obtain ⟨gs, hgs⟩ := q2 m gs1 evs1 gs2 _ evs2 hm hmt d1 e1 rfl
    refine ⟨gs, evs1, evs2, ?_, ?_, ?_⟩
    · unfold execStream
      rw [q1.ops]
      exact hgs
    · have hdec : List.Forall₂ (fun d c => (match d, c with
          | Deco.back k, Deco.back k' => CloseMark ε k' k
          | Deco.under k, Deco.under k' => CloseMark ε k' k
          | _, _ => False)) ((runMarks X Y (fun j p => shownWidth M (tw j p) p) 0 (ls.map Prod.fst)).flatMap Mark.decos)
          ((codeMarks cfg width 0 g0 0 ls).flatMap Mark.decos) := by
        refine List.rel_flatMap hclose.flip ?_
        intro k k' hk
        unfold Mark.decos
        rw [hk.same.2.2]
        refine List.rel_append ?_ ?_
        · split
          · exact .cons hk .nil
          · exact .nil
        · split
          · exact .cons hk .nil
          · exact .nil
      refine forall2_comp ?_ hdec d3
      have near : ∀ {v v' e : Rat}, |v - v'| ≤ e → Near (e + ε) v' (F.b v) := fun {v v' e} hv =>
        ⟨_, hd.val v, by rw [add_comm]; exact abs_near (hd.err v) hv⟩
      have near_le : ∀ {e e' v : Rat} {b : Bytes}, e ≤ e' → Near e v b → Near e' v b := fun he ⟨r, h1, h2⟩ => ⟨r, h1, le_trans h2 he⟩
      intro d c ev hdc hev
      have bounds : ∀ k : Mark, (k.j + 1 + lineBlanks k.line : Rat) * ε + ε ≤ markErr ε k ∧ (k.j + 1 : Rat) * ε + ε ≤ markErr ε k ∧ ε ≤ markErr ε k ∧
          (lineBlanks k.line : Rat) * ε + ε ≤ markErr ε k := by
        intro k
        unfold markErr
        have h1 : (0 : Rat) ≤ (k.j : Rat) * ε := mul_nonneg (by exact_mod_cast Nat.zero_le _) hε
        have h2 : (0 : Rat) ≤ (lineBlanks k.line : Rat) * ε := mul_nonneg (by exact_mod_cast Nat.zero_le _) hε
        refine ⟨by linarith, by linarith, by linarith, by linarith⟩
      cases d with
      | back k => cases c with
        | under k' => exact hdc.elim
        | back k' =>
          obtain ⟨gs', rfl, f1, f2⟩ := hev
          have hc : CloseMark ε k' k := hdc
          obtain ⟨b1, b2, b3, b4⟩ := bounds k
          have hpart := hc.same.2.2
          refine ⟨gs', _, _, _, _, rfl, by rw [f1, hpart], f2, near_le b1 (near hc.x), near_le b2 (near ?_), near_le b4 (near hc.w), near_le b3 ?_⟩
          · rw [hpart]
            unfold Mark.base Mark.size
            rw [show k'.y + k.part.look.st.rise - k.part.look.st.size / 4 - (k.y + k.part.look.st.rise - k.part.look.st.size / 4) = k'.y - k.y by ring]
            exact hc.y
          · rw [hpart]
            unfold Mark.size
            rw [show k.part.look.st.size * (6 / 5) = 6 * k.part.look.st.size / 5 by ring]
            exact ⟨_, hd.val _, hd.err _⟩
      | under k => cases c with
        | back k' => exact hdc.elim
        | under k' =>
          obtain ⟨gs', rfl, f1, f2, f3, f4, f5⟩ := hev
          have hc : CloseMark ε k' k := hdc
          obtain ⟨b1, b2, b3, b4⟩ := bounds k
          have hpart := hc.same.2.2
          refine ⟨gs', _, _, _, rfl, by rw [f1, hpart], f2, f3, f4, near_le b3 ?_, near_le b1 (near hc.x), near_le b2 (near ?_), near_le b1 (near hc.r)⟩
          · rw [f5, hpart]
            unfold Mark.size
            rw [show k.part.look.st.size * (7 / 100) = 7 * k.part.look.st.size / 100 by ring]
            exact ⟨_, hd.val _, hd.err _⟩
          · rw [hpart]
            unfold Mark.base Mark.size
            rw [show k'.y + k.part.look.st.rise - k.part.look.st.size * (7 / 100) - (k.y + k.part.look.st.rise - 7 * k.part.look.st.size / 100) = k'.y - k.y by ring]
            exact hc.y
    · have hpl := runItems_moves (F := F) (cfg := cfg) (width := width) (first := pos.isFirstLine) (fac := fac) (mvA := mvA) ls 0 g0 [] hg0 (fun _ => rfl) (by
        intro i l hi
        simp only [Nat.zero_add]
        exact ⟨rfl, hfac i l hi⟩)
      have hline := placed_line cfg pos.isFirstLine ls
      refine forall2_comp ?_ (forall2_mem_right hpl hline) e2
      rintro pl it e ⟨⟨hit1, hit2⟩, hjl⟩ hev
      have hlen : pl.j < ls.length := (List.getElem?_eq_some_iff.1 hjl).1
      obtain ⟨m1, m2⟩ := hmoved pl.j hlen
      cases hpp : pl.part with
      | some p =>
        rw [hit1 p hpp] at hev
        obtain ⟨gs', s, rfl, -, hws', -, -, hcm⟩ := hev
        refine ⟨gs', _, _, rfl, hcm, by rw [hpp]; exact m1, m2, ?_⟩
        intro q hq
        rw [hpp] at hq
        cases hq
        rw [hws', tw_val hd.toDec]
      | none =>
        obtain ⟨lc, d, r, rfl, hmva⟩ := hit2 hpp
        obtain ⟨gs', s, rfl, -, -, -, hcm⟩ := hev
        refine ⟨gs', _, _, rfl, hcm, by rw [hpp, if_pos rfl]; show numSum [b!"0"] = some 0; decide +kernel, ?_, fun p hp => by rw [hpp] at hp; cases hp⟩
        rw [hmva] at m2
        have hzero : numVal b!"0" = some 0 := by decide +kernel
        unfold numSum at m2 ⊢
        cases hd' : numVal d with
        | none => simp [hd'] at m2
        | some v => simpa [hd', hzero] using m2
  · intro id
    rw [i1, fold_ids]
    have hids : List.Forall₂ (fun k k' => CloseMark ε k' k) (marksOf id (runMarks X Y (fun j p => shownWidth M (tw j p) p) 0 (ls.map Prod.fst)))
        (marksOf id (codeMarks cfg width 0 g0 0 ls)) := by
      refine List.rel_flatMap hclose.flip ?_
      intro k k' hk
      show List.Forall₂ _ (List.replicate ((k.part.ids.getD []).count id) k) (List.replicate ((k'.part.ids.getD []).count id) k')
      rw [hk.same.2.2]
      generalize (k.part.ids.getD []).count id = n
      clear * - hk
      induction n with
      | zero => exact .nil
      | succ n ih => exact .cons hk ih
    show List.Forall₂ _ _ ([] ++ _)
    rw [List.nil_append, List.forall₂_map_right_iff]
    refine hids.imp ?_
    intro k k' hc
    have hpart := hc.same.2.2
    have h1 : (0 : Rat) ≤ (k.j : Rat) * ε := mul_nonneg (by exact_mod_cast Nat.zero_le _) hε
    have h2 : (0 : Rat) ≤ (lineBlanks k.line : Rat) * ε := mul_nonneg (by exact_mod_cast Nat.zero_le _) hε
    have hsz := hd.err k.part.look.st.size
    unfold RectAround markErr Mark.base Mark.size
    rw [hpart]
    simp only []
    refine ⟨?_, ?_, ?_, ?_⟩
    · exact le_trans (abs_near (hd.err _) hc.x) (by linarith)
    · refine le_trans (abs_near (hd.err _) (d := (k.j + 1 : Rat) * ε + ε / 4) ?_) (by linarith)
      rw [show k'.y + k.part.look.st.rise - F.rnd k.part.look.st.size / 4 - (k.y + k.part.look.st.rise - k.part.look.st.size / 4) =
        (k'.y - k.y) + -((F.rnd k.part.look.st.size - k.part.look.st.size) / 4) by ring]
      refine le_trans (abs_add_le _ _) (add_le_add hc.y ?_)
      rw [abs_neg, div_eq_mul_inv, abs_mul, show |((4 : Rat)⁻¹)| = 1 / 4 by norm_num]
      linarith
    · exact le_trans (abs_near (hd.err _) hc.r) (by linarith)
    · refine le_trans (abs_near (hd.err _) (d := (k.j + 1 : Rat) * ε + ε * (3 / 4)) ?_) (by linarith)
      rw [show k'.y + k.part.look.st.rise - F.rnd k.part.look.st.size / 4 + F.rnd k.part.look.st.size - (k.y + k.part.look.st.rise + 3 * k.part.look.st.size / 4) =
        (k'.y - k.y) + (F.rnd k.part.look.st.size - k.part.look.st.size) * (3 / 4) by ring]
      refine le_trans (abs_add_le _ _) (add_le_add hc.y ?_)
      rw [abs_mul, show |(3 / 4 : Rat)| = 3 / 4 by norm_num]
      linarith
  · rw [i1, fold_keys]
    show firstsFrom [] (markIds (codeMarks cfg width 0 g0 0 ls)) = firstsFrom [] _
    congr 1
    clear * - hclose
    generalize codeMarks cfg width 0 g0 0 ls = a at *
    generalize runMarks X Y (fun j p => shownWidth M (tw j p) p) 0 (ls.map Prod.fst) = b at *
    induction hclose with
    | nil => rfl
    | cons hk _ ih =>
      simp only [markIds, List.flatMap_cons] at ih ⊢
      rw [hk.same.2.2, ih]
  · intro j l hl
    refine ⟨hstart j l hl, fun p => ?_⟩
    rw [← hfac j l hl]
    exact hd.err _

/-- C67: what a run of a paragraph puts on a page (pdf.py `_add_text`, utils.py:339-361) draws and shows the pieces of its lines at the same place.
There are points `(X j, Y j)` and word spacings so that: every part is shown on the line that begins at `(X j, Y j)`, one after the other; for
every piece that is not blank, in order, its background is filled, in its colour, and its underline is stroked, in the colour of its text,
exactly as wide as the piece is shown, where it is shown, and the rectangles noted for an id are those of the pieces that carry it. The ids
are noted in the order in which they first appear. All
numbers are meant up to rounding. -/
theorem C67_marks_partial (F : TFmt) (hF : F.Ok) (ε : Rat) (hd : F.Signed ε) (E : Encs) (hE : E.Ok) (refOf : Str → Str → Str)
    (M : Metrics) (cfg : TCfg) (enc : Option (Str × Str)) (hs : StylesOk F refOf cfg) (hlt : ListTextOk cfg enc)
    (hmv : cfg.align = c!"r" ∨ cfg.align = c!"c" → cfg.indent = 0)
    (hraw : cfg.list ≠ none → ∀ x, numVal (bytesOf (F.raw x)) = some x) (hlh : 0 ≤ cfg.lineHeight)
    (hlk : ∀ x ∈ contentLooks cfg.content, x.Ok ∧ (cfg.align = c!"j" → x.enc = none))
    (hw : ∀ w ∈ contentWords cfg.content, w = c!" " ∨ ' ' ∉ w)
    (width height : Rat) (pos : TPos) (hr : TReach M cfg pos) (correct : Bool)
    (hcor : cfg.indent = 0 ∨ correct = pos.isFirstLine) (o : OutSt)
    (h : textOut F M E cfg enc width height pos correct = .ok o) (px py : Rat) (b : Bytes)
    (hb : encodeLatin (paragraphStream F.toNumFmt px py o.text o.graphics) = .ok b) :
    ∃ (X Y : Nat → Rat) (tw : Nat → TPart → Rat) (marks : List Mark),
      marks = runMarks X Y (fun j p => shownWidth M (tw j p) p) 0 ((textRun M cfg width height pos).lines.map Prod.fst) ∧
      (∀ m : MS, m.path = [] → m.text = none → ∃ gs drawn shown, execStream m b = some (⟨gs, m.stack, [], none⟩, drawn ++ shown) ∧
        List.Forall₂ (DecoPainted F.comps (markErr ε) { m.gs with cms := m.gs.cms ++ [placeAt F px py] }) (marks.flatMap Mark.decos) drawn ∧
        List.Forall₂ (ShownAt (placeAt F px py) m.gs.cms X Y tw) (placedFrom cfg pos.isFirstLine 0 (textRun M cfg width height pos).lines) shown) ∧
      (∀ id, List.Forall₂ (RectAround (markErr ε)) (marksOf id marks) ((dget id o.ids).getD [])) ∧ o.ids.map Prod.fst = firsts (markIds marks) := by
  obtain ⟨X, Y, tw, marks, h1, h2, h3, h4, -⟩ := run_marks F hF ε hd E hE refOf M cfg enc hs hlt hmv hraw hlh hlk hw width height pos hr correct hcor o h px py b hb
  exact ⟨X, Y, tw, marks, h1, h2, h3, h4⟩

/-! ### examples and counterexamples (10 point text, every character is as wide as it is high) -/

/-- what can be seen of a paragraph: texts with their places, filled boxes, lines -/
inductive MarkSeen
  | text (s : Bytes) (x y : Option Rat)
  | box (x y w h : Option Rat)
  | line (x y x' y' : Option Rat)
  | other
  deriving DecidableEq

/-- plain text, and text with a background, an underline and an id -/
def exMarkPar (plain linked : Str) (indent : Rat) (align : Str) (enc : Option Str) : TCfg :=
  ⟨[.text (splitWords plain) (samplePart [] enc).look none, .text (splitWords linked) ⟨sampleSt, true, ⟨some [1], false⟩, enc⟩ (some [c!"a"])],
    indent, align, 1, none⟩

/-- what a run shows and draws (moved to `(100, 700)`), and the rectangles of the id -/
def exMarks (cfg : TCfg) (E : Encs) (width height : Rat) (pos : TPos) (correct : Bool) : Option (List MarkSeen × List IdRect) :=
  match textOut sampleTFmt sampleM E cfg none width height pos correct with
  | .error _ => none
  | .ok o => (execStream ⟨sampleGS, [], [], none⟩ (bytesOf (paragraphStream sampleFmt 100 700 o.text o.graphics))).map fun r =>
      (r.2.map fun
        | .text _ _ mv s => .text s (numSum (mv.map Prod.fst)) (numSum (mv.map Prod.snd))
        | .fill _ [.rect a b c d] => .box (numVal a) (numVal b) (numVal c) (numVal d)
        | .stroke _ [.move a b, .line c d] => .line (numVal a) (numVal b) (numVal c) (numVal d)
        | _ => .other, (dget c!"a" o.ids).getD [])

/-- `bb cc` is linked; `cc` is on the second line. (The numbers are rounded down to integers.) -/
example : exMarks (exMarkPar c!"aa " c!"bb cc" 0 c!"l" none) (fun _ _ => none) 60 100 TPos.init true =
    some ([.box (some 30) (some (-14)) (some 20) (some 12), .line (some 30) (some (-12)) (some 50) (some (-12)),
      .box (some 0) (some (-24)) (some 20) (some 12), .line (some 0) (some (-22)) (some 20) (some (-22)),
      .text b!"aa " (some 0) (some (-11)), .text b!"bb" (some 0) (some (-11)), .text b!"cc" (some 0) (some (-21))],
      [(30, -14, 50, -4), (0, -24, 20, -14)]) := by decide +kernel

/-- a centred line -/
example : exMarks (exMarkPar c!"aa " c!"bb" 0 c!"c" none) (fun _ _ => none) 60 100 TPos.init true =
    some ([.box (some 35) (some (-14)) (some 20) (some 12), .line (some 35) (some (-12)) (some 55) (some (-12)),
      .text b!"aa " (some 5) (some (-11)), .text b!"bb" (some 5) (some (-11))], [(35, -14, 55, -4)]) := by decide +kernel

/-- **C67 is false for right aligned paragraphs with an indent**: the text is shown from 10 to 30 (of 30), but its box, its line and its rectangle
are moved by the indent, from 15 to 35. -/
theorem C67_right_indent_false :
    exMarks (exMarkPar [] c!"bb" 5 c!"r" none) (fun _ _ => none) 30 100 TPos.init true =
      some ([.box (some 15) (some (-14)) (some 20) (some 12), .line (some 15) (some (-12)) (some 35) (some (-12)),
        .text b!"bb" (some 10) (some (-11))], [(15, -14, 35, -4)]) := by decide +kernel

/-- **C67 is false for justified text in TrueType fonts**: the word spacing does not apply to the blank, which stays 10 wide, so that `bb` is
shown from 30 to 50; its marks are from 40 to 60. -/
theorem C67_truetype_false :
    exMarks (exMarkPar c!"aa " c!"bb cc dd ee" 0 c!"j" (some c!"n")) (fun _ _ => some fun c => some c.toNat) 60 25 TPos.init true =
      some ([.box (some 40) (some (-14)) (some 20) (some 12), .line (some 40) (some (-12)) (some 60) (some (-12)),
        .box (some 0) (some (-24)) (some 50) (some 12), .line (some 0) (some (-22)) (some 50) (some (-22)),
        .text [0, 97, 0, 97, 0, 32] (some 0) (some (-11)), .text [0, 98, 0, 98] (some 0) (some (-11)),
        .text [0, 99, 0, 99, 0, 32, 0, 100, 0, 100] (some 0) (some (-21))], [(40, -14, 60, -4), (0, -24, 50, -14)]) := by decide +kernel

/-- **C67 is false for later rectangles**: after a first rectangle with room for one line, `correct_indent` is still set, and `cc` is shown from
-5 to 15; its marks are from 0 to 20. -/
theorem C67_second_rectangle_false :
    exMarks (exMarkPar c!"aa " c!"bb cc" 5 c!"l" none) (fun _ _ => none) 30 100
        (textRun sampleM (exMarkPar c!"aa " c!"bb cc" 5 c!"l" none) 30 12 TPos.init).pos true =
      some ([.box (some 0) (some (-14)) (some 20) (some 12), .line (some 0) (some (-12)) (some 20) (some (-12)),
        .box (some 0) (some (-24)) (some 20) (some 12), .line (some 0) (some (-22)) (some 20) (some (-22)),
        .text b!"bb" (some 0) (some (-11)), .text b!"cc" (some (-5)) (some (-21))], [(0, -14, 20, -4), (0, -24, 20, -14)]) := by decide +kernel

theorem sampleTFmt_signed : sampleTFmt.Signed 1 where
  toDec := sampleTFmt_dec
  down := by
    intro x hx
    have h0 : 0 ≤ x.floor := by
      rw [Rat.le_floor_iff]; exact_mod_cast hx
    obtain ⟨n, hn⟩ := Int.eq_ofNat_of_zero_le h0
    have e : sampleTFmt.down x = bytesOf ('-' :: intStr x.floor) := rfl
    have e2 : sampleTFmt.rnd x = (x.floor : Rat) := rfl
    rw [e, e2, hn]
    cases n with
    | zero => decide +kernel
    | succ n =>
      have := sampleTFmt_val (Int.negSucc n : Int)
      have e3 : sampleTFmt.b ((Int.negSucc n : Int) : Rat) = bytesOf (intStr ((Int.negSucc n : Int) : Rat).floor) := rfl
      have e4 : sampleTFmt.rnd ((Int.negSucc n : Int) : Rat) = ((((Int.negSucc n : Int) : Rat).floor : Int) : Rat) := rfl
      rw [e3, e4, Rat.floor_intCast] at this
      have e5 : bytesOf (intStr (Int.negSucc n)) = bytesOf ('-' :: intStr ((n + 1 : Nat) : Int)) := rfl
      rw [e5] at this
      rw [this]
      congr 1

/-- the theorem applies to the first example: with exact places and widths, whatever the page was -/
example (o : OutSt) (h : textOut sampleTFmt sampleM (fun _ _ => none) (exMarkPar c!"aa " c!"bb cc" 0 c!"l" none) none 60 100 TPos.init true = .ok o)
    (b : Bytes) (hb : encodeLatin (paragraphStream sampleTFmt.toNumFmt 100 700 o.text o.graphics) = .ok b) :=
  C67_marks_partial sampleTFmt sampleTFmt_ok 1 sampleTFmt_signed (fun _ _ => none) (by intro f m map c g h; cases h) sampleRef sampleM _ none
    ⟨by
      have : sampleSt.Ok sampleRef := ⟨⟨[1], rfl, Or.inl rfl⟩, rfl, rfl, by unfold NameOk; decide⟩
      intro x hx
      simp only [exMarkPar, contentLooks, List.filterMap_cons, List.filterMap_nil, List.mem_cons, List.not_mem_nil, or_false] at hx
      rcases hx with rfl | rfl <;> exact this, (by intro lc h; cases h), (by intro lc h; cases h)⟩
    (by intro lc h; cases h) (by intro h; rfl) (by intro h; exact absurd rfl h) (by show (0 : Rat) ≤ 1; norm_num)
    (by
      intro x hx
      simp only [exMarkPar, contentLooks, List.filterMap_cons, List.filterMap_nil, List.mem_cons, List.not_mem_nil, or_false] at hx
      have hw : ∀ b, Writable (⟨some [1], b⟩ : PDFColor Rat) := fun b => ⟨[1], rfl, Or.inl rfl⟩
      rcases hx with rfl | rfl
      · exact ⟨⟨fun h => by simp [samplePart] at h, fun h => by simp [samplePart] at h⟩, fun _ => rfl⟩
      · exact ⟨⟨fun _ => ⟨hw _, rfl⟩, fun _ => hw _⟩, fun _ => rfl⟩)
    (by
      intro w hw
      simp only [exMarkPar, contentWords, List.flatMap_cons, List.flatMap_nil, List.append_nil, List.mem_append] at hw
      rcases hw with hw | hw <;> exact splitWords_blank _ w hw)
    60 100 TPos.init ⟨[], rfl, rfl⟩ true (.inl rfl) o h 100 700 b hb

end Verif
