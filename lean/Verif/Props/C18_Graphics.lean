import Verif.Model.Graphics
import Verif.Lemmas.Machine
import Mathlib.Data.List.Forall2
/-! C18: fills and lines are painted with their own attributes. -/
namespace Verif
open Spec

/-- the operand bytes of a number -/
def NumFmt.b (F : NumFmt) (x : Rat) : Bytes := bytesOf (F.fmt x)

/-- numbers are written as numbers -/
def NumFmt.Ok (F : NumFmt) : Prop := (∀ x, NumText (F.fmt x)) ∧ ∀ x, NumText (F.fmtHalf x)

/-- a colour that can be written: one (gray) or three (rgb) components -/
def Writable (c : PDFColor Rat) : Prop := ∃ l, c.color = some l ∧ (l.length = 1 ∨ l.length = 3)

/-- the components of a colour as written -/
def NumFmt.comps (F : NumFmt) (c : PDFColor Rat) : List Bytes := (c.color.getD []).map F.b

/-- the cap style and dash pattern of a line style: dashes of three widths with gaps of one and a half;
round dots every two widths; or nothing. -/
def dashOf (F : NumFmt) (style : Str) (w : Rat) : Option (Bytes × (List Bytes × Bytes)) :=
  if style = c!"dashed" then some (b!"0", [F.b (3 * w), F.b (w + w / 2)], b!"0")
  else if style = c!"dotted" then some (b!"1", [b!"0", F.b (2 * w)], bytesOf (F.fmtHalf w))
  else if style = c!"solid" then some (b!"0", [], b!"0")
  else none

/-- the dicts create_graphics is given by the library: fills with a non-stroking colour, lines with a
stroking colour and a known style -/
def Graphic.Ok : Graphic → Prop
  | .fill c _ _ _ _ => Writable c ∧ c.stroke = false
  | .line c _ style _ _ _ _ => Writable c ∧ c.stroke = true ∧
      (style = c!"dashed" ∨ style = c!"dotted" ∨ style = c!"solid")
  | .other => False

/-- the event paints the graphic with its own attributes, in the coordinate system of `gs0` -/
def Paints (F : NumFmt) (gs0 : GS) : Graphic → Event → Prop
  | .fill c x y w h, .fill gs path =>
    gs.fill = F.comps c ∧ path = [.rect (F.b x) (F.b y) (F.b w) (F.b h)] ∧ gs.cms = gs0.cms
  | .line c w style x1 y1 x2 y2, .stroke gs path =>
    gs.stroke = F.comps c ∧ gs.width = F.b w ∧ dashOf F style w = some (gs.cap, gs.dash) ∧
      path = [.move (F.b x1) (F.b y1), .line (F.b x2) (F.b y2)] ∧ gs.cms = gs0.cms
  | _, _ => False

/-- the colour operator as written by `PDFColor.str` -/
theorem color_ops {F : NumFmt} (hF : F.Ok) {c : PDFColor Rat} (hc : Writable c) :
    ∃ s o, c.str F.fmt = .ok s ∧ OpsTo s [o] ∧ ∀ m : MS, m.path = [] →
      step m o = some ({ m with gs := if c.stroke then { m.gs with stroke := F.comps c }
        else { m.gs with fill := F.comps c } }, []) := by
  obtain ⟨l, hl, hlen⟩ := hc
  obtain ⟨col, stroke⟩ := c
  simp only at hl
  subst hl
  match l, hlen with
  | [x], _ =>
    cases stroke
    · exact ⟨numsOp [F.fmt x] c!"g", _, rfl,
        numsOp_ops (l := [F.fmt x]) (w := c!"g") (by simp [hF.1]) (by decide) (by decide),
        fun m hm => step_g hm⟩
    · exact ⟨numsOp [F.fmt x] c!"G", _, rfl,
        numsOp_ops (l := [F.fmt x]) (w := c!"G") (by simp [hF.1]) (by decide) (by decide),
        fun m hm => step_G hm⟩
  | [x, y, z], _ =>
    cases stroke
    · exact ⟨numsOp [F.fmt x, F.fmt y, F.fmt z] c!"rg", _, rfl,
        numsOp_ops (l := [F.fmt x, F.fmt y, F.fmt z]) (w := c!"rg") (by simp [hF.1]) (by decide) (by decide),
        fun m hm => step_rg hm⟩
    · exact ⟨numsOp [F.fmt x, F.fmt y, F.fmt z] c!"RG", _, rfl,
        numsOp_ops (l := [F.fmt x, F.fmt y, F.fmt z]) (w := c!"RG") (by simp [hF.1]) (by decide) (by decide),
        fun m hm => step_RG hm⟩

/-- the colour part leaves the machine with the wanted colour -/
theorem colorPart_ops {F : NumFmt} (hF : F.Ok) {c : PDFColor Rat} (hc : Writable c)
    (last : Option (PDFColor Rat)) (m : MS) (hp : m.path = [])
    (hl : ∀ d, last = some d → d.stroke = c.stroke ∧
      (if c.stroke then m.gs.stroke else m.gs.fill) = F.comps d) :
    ∃ last' s ops, colorPart F c last = .ok (last', s) ∧ OpsTo s ops ∧ Sep (bytesOf s) ∧
      (∃ d, last' = some d ∧ d.stroke = c.stroke ∧ F.comps d = F.comps c) ∧
      exec m ops = some ({ m with gs := if c.stroke then { m.gs with stroke := F.comps c }
        else { m.gs with fill := F.comps c } }, []) := by
  unfold colorPart
  by_cases hd : colorDiffers c last = true
  · rw [if_pos hd]
    obtain ⟨s, o, h1, h2, h3⟩ := color_ops hF hc
    rw [h1]
    refine ⟨some c, ' ' :: s, [o], rfl, h2.space, ?_, ⟨c, rfl, rfl, rfl⟩, exec_one (h3 m hp)⟩
    show isRegular (latin1 ' ') = false
    decide
  · rw [if_neg hd]
    obtain ⟨l, hcl, hlen⟩ := hc
    cases last with
    | none => simp [colorDiffers, hcl] at hd
    | some d =>
      simp only [colorDiffers, Bool.not_eq_true, Bool.not_eq_false', Bool.and_eq_true,
        beq_iff_eq] at hd
      obtain ⟨h1, h2⟩ := hl d rfl
      have h3 : F.comps d = F.comps c := by simp [NumFmt.comps, hd.1]
      refine ⟨some d, [], [], rfl, OpsTo.nil, by simp [bytesOf], ⟨d, rfl, h1, h3⟩, ?_⟩
      rw [h3] at h2
      simp only [exec]
      cases hcs : c.stroke with
      | true => simp only [hcs, if_true] at h2 ⊢; rw [← h2]
      | false =>
        simp only [hcs] at h2 ⊢
        have : m.gs.fill = F.comps c := by simpa using h2
        simp [← this]

/-- the text of a line style is a `J` and a `d` operator -/
theorem lineStyle_ops {F : NumFmt} (hF : F.Ok) {style : Str} {w : Rat} {cap dash}
    (h : dashOf F style w = some (cap, dash)) :
    ∃ s, lineStyle F style w = .ok s ∧ Sep (bytesOf s) ∧
      OpsTo s [⟨[.num cap], b!"J"⟩, ⟨[.arr dash.1, .num dash.2], b!"d"⟩] := by
  unfold dashOf at h
  unfold lineStyle
  have hz : NumText c!"0" := by unfold NumText; decide
  have ho : NumText c!"1" := by unfold NumText; decide
  have hb : ∀ rest, Sep (bytesOf (' ' :: rest)) := by
    intro rest
    show isRegular (latin1 ' ') = false
    decide
  -- `[a] p d` with the array text `arr`
  have gen : ∀ (arr : Str) (l : List Bytes) (p : Str), NumText p →
      LexTo (bytesOf arr) (l.map Tok.word) → (∀ b ∈ l, isNumber b = true) →
      OpsTo (c!"[" ++ arr ++ c!"] " ++ p ++ c!" d") [⟨[.arr l, .num (bytesOf p)], b!"d"⟩] := by
    intro arr l p hp hl hn
    apply OpsTo.op (w := b!"d") (by decide)
    · intro a ha
      simp only [List.mem_cons, List.not_mem_nil, or_false] at ha
      rcases ha with rfl | rfl
      · exact hn
      · exact hp.isNumber
    · have e : c!"[" ++ arr ++ c!"] " ++ p ++ c!" d" = '[' :: (arr ++ ']' :: ' ' :: (p ++ ' ' :: c!"d")) := by
        simp
      rw [e]
      have h1 : LexTo (bytesOf (' ' :: (p ++ ' ' :: c!"d"))) [.word (bytesOf p), .word b!"d"] :=
        lexTo_space (lexTo_append_space hp.lexTo (lexTo_word c!"d" (by decide)))
      have h2 : LexTo (bytesOf (']' :: ' ' :: (p ++ ' ' :: c!"d")))
          [.rbrack, .word (bytesOf p), .word b!"d"] := by
        intro rest hr
        show lexFrom .idle (93 :: (bytesOf (' ' :: (p ++ ' ' :: c!"d")) ++ rest)) = _
        rw [lexFrom_rbrack, h1 rest hr]
        simp
      intro rest hr
      show lexFrom .idle (91 :: (bytesOf (arr ++ ']' :: ' ' :: (p ++ ' ' :: c!"d")) ++ rest)) = _
      rw [lexFrom_lbrack, show bytesOf (arr ++ ']' :: ' ' :: (p ++ ' ' :: c!"d")) =
        bytesOf arr ++ bytesOf (']' :: ' ' :: (p ++ ' ' :: c!"d")) from List.map_append]
      have h3 := hl.append (b := bytesOf (']' :: ' ' :: (p ++ ' ' :: c!"d"))) h2 (by
        intro r _
        show isRegular 93 = false
        decide) rest hr
      rw [h3]
      simp [operandToks]
  split at h
  · rename_i hs
    rw [if_pos hs]
    cases h
    refine ⟨_, rfl, hb _, ?_⟩
    have e1 : w * 3 = 3 * w := by rw [Rat.mul_comm]
    have e2 : w * (3 / 2) = w + w / 2 := by
      have : (3 / 2 : Rat) = 1 + 1 / 2 := by decide +kernel
      rw [this, Rat.mul_add, Rat.mul_one, Rat.div_def, Rat.div_def, Rat.one_mul]
    rw [e1, e2]
    have e : c!" 0 J [" ++ F.fmt (3 * w) ++ c!" " ++ F.fmt (w + w / 2) ++ c!"] 0 d" =
        (' ' :: numsOp [c!"0"] c!"J") ++ ' ' ::
          (c!"[" ++ (F.fmt (3 * w) ++ ' ' :: F.fmt (w + w / 2)) ++ c!"] " ++ c!"0" ++ c!" d") := by
      simp [numsOp]
    rw [e]
    refine (numsOp_ops (l := [c!"0"]) (w := c!"J") (by simpa using hz) (by decide)
      (by decide)).space.append_space (gen _ _ _ hz ?_ ?_)
    · exact lexTo_append_space (hF.1 _).lexTo (hF.1 _).lexTo
    · intro b hb
      simp only [List.mem_cons, List.not_mem_nil, or_false] at hb
      rcases hb with rfl | rfl
      · exact (hF.1 _).isNumber
      · exact (hF.1 _).isNumber
  · rename_i hs
    rw [if_neg hs]
    split at h
    · rename_i hs
      rw [if_pos hs]
      cases h
      refine ⟨_, rfl, hb _, ?_⟩
      have e1 : w * 2 = 2 * w := by rw [Rat.mul_comm]
      rw [e1]
      have e : c!" 1 J [0 " ++ F.fmt (2 * w) ++ c!"] " ++ F.fmtHalf w ++ c!" d" =
          (' ' :: numsOp [c!"1"] c!"J") ++ ' ' ::
            (c!"[" ++ (c!"0" ++ ' ' :: F.fmt (2 * w)) ++ c!"] " ++ F.fmtHalf w ++ c!" d") := by
        simp [numsOp]
      rw [e]
      refine (numsOp_ops (l := [c!"1"]) (w := c!"J") (by simpa using ho) (by decide)
        (by decide)).space.append_space (gen _ _ _ (hF.2 _) ?_ ?_)
      · exact lexTo_append_space hz.lexTo (hF.1 _).lexTo
      · intro b hb
        simp only [List.mem_cons, List.not_mem_nil, or_false] at hb
        rcases hb with rfl | rfl
        · decide
        · exact (hF.1 _).isNumber
    · rename_i hs
      rw [if_neg hs]
      split at h
      · rename_i hs
        rw [if_pos hs]
        cases h
        refine ⟨_, rfl, hb _, ?_⟩
        have e : c!" 0 J [] 0 d" =
            (' ' :: numsOp [c!"0"] c!"J") ++ ' ' :: (c!"[" ++ [] ++ c!"] " ++ c!"0" ++ c!" d") := by
          simp [numsOp]
        rw [e]
        exact (numsOp_ops (l := [c!"0"]) (w := c!"J") (by simpa using hz) (by decide)
          (by decide)).space.append_space (gen _ _ _ hz LexTo.nil (by simp))
      · cases h

/-- what the loop remembers agrees with the machine -/
structure GInv (F : NumFmt) (last : GLast) (m : MS) : Prop where
  path : m.path = []
  text : m.text = none
  fill : ∀ c, last.fill = some c → c.stroke = false ∧ m.gs.fill = F.comps c
  color : ∀ c, last.color = some c → c.stroke = true ∧ m.gs.stroke = F.comps c
  width : ∀ w, last.width = some w → m.gs.width = F.b w
  style : ∀ s, last.style = some s → ∀ cap dash,
    OpsTo s [⟨[.num cap], b!"J"⟩, ⟨[.arr dash.1, .num dash.2], b!"d"⟩] →
      m.gs.cap = cap ∧ m.gs.dash = dash

theorem sep_append {a b : Str} (ha : Sep (bytesOf a)) (hb : Sep (bytesOf b)) : Sep (bytesOf (a ++ b)) := by
  cases a with
  | nil => exact hb
  | cons c a => exact ha

theorem sep_space (b : Str) : Sep (bytesOf (' ' :: b)) := by
  show isRegular (latin1 ' ') = false
  decide

theorem graphicStep_ops {F : NumFmt} (hF : F.Ok) {last : GLast} {m : MS} (hi : GInv F last m)
    {g : Graphic} (hg : g.Ok) :
    ∃ last' s ops m' e, graphicStep F last g = .ok (last', s) ∧ OpsTo s ops ∧ Sep (bytesOf s) ∧ s ≠ [] ∧
      exec m ops = some (m', [e]) ∧ GInv F last' m' ∧ Paints F m.gs g e ∧ m'.stack = m.stack ∧
      m'.gs.cms = m.gs.cms := by
  cases g with
  | other => exact hg.elim
  | fill c x y w h =>
    obtain ⟨hw, hs⟩ := hg
    obtain ⟨last', s, ops, h1, h2, h3, ⟨d, hd, hd2, hd3⟩, h4⟩ := colorPart_ops hF hw last.fill m hi.path
      (by intro d hd; obtain ⟨h1, h2⟩ := hi.fill d hd; exact ⟨by rw [h1, hs], by simpa [hs] using h2⟩)
    simp only [graphicStep, h1]
    subst hd
    rw [hs] at h4 hd2
    simp only [Bool.false_eq_true, if_false] at h4
    have hex := exec_append_of h4 (exec_cons_of
      (o := ⟨[.num (F.b x), .num (F.b y), .num (F.b w), .num (F.b h)], b!"re"⟩)
      (step_re (by exact hi.text)) (exec_one (step_F (by simp))))
    refine ⟨_, _, _, _, _, rfl, ?_, ?_, by simp, hex, ?_, ?_, rfl, rfl⟩
    · have e : s ++ c!" " ++ F.fmt x ++ c!" " ++ F.fmt y ++ c!" " ++ F.fmt w ++ c!" " ++ F.fmt h ++
          c!" re F" = s ++ ' ' :: (numsOp [F.fmt x, F.fmt y, F.fmt w, F.fmt h] c!"re" ++ ' ' :: c!"F") := by
        simp [numsOp]
      rw [e]
      exact h2.append_space ((numsOp_ops (l := [F.fmt x, F.fmt y, F.fmt w, F.fmt h]) (w := c!"re")
        (by simp [hF.1]) (by decide) (by decide)).append_space (opsTo_word c!"F" (by decide) (by decide)))
    · rw [List.append_assoc, List.append_assoc, List.append_assoc, List.append_assoc, List.append_assoc,
        List.append_assoc, List.append_assoc, List.append_assoc]
      exact sep_append h3 (sep_space _)
    · refine ⟨rfl, hi.text, ?_, hi.color, hi.width, hi.style⟩
      intro c' hc'
      cases hc'
      exact ⟨hd2, hd3.symm⟩
    · simp [Paints, hi.path]
  | line c w style x1 y1 x2 y2 =>
    obtain ⟨hw, hs, hst⟩ := hg
    obtain ⟨last', s, ops, h1, h2, h3, ⟨d, hd, hd2, hd3⟩, h4⟩ := colorPart_ops hF hw last.color m hi.path
      (by intro d hd; obtain ⟨h1, h2⟩ := hi.color d hd; exact ⟨by rw [h1, hs], by simpa [hs] using h2⟩)
    subst hd
    rw [hs] at h4 hd2
    simp only [if_true] at h4
    obtain ⟨cap, dash, hdash⟩ : ∃ cap dash, dashOf F style w = some (cap, dash) := by
      rcases hst with rfl | rfl | rfl
      · exact ⟨_, _, rfl⟩
      · exact ⟨_, _, rfl⟩
      · exact ⟨_, _, rfl⟩
    obtain ⟨ls, hl1, hl2, hl3⟩ := lineStyle_ops hF hdash
    simp only [graphicStep, h1, hl1]
    -- the width part
    obtain ⟨sw, wops, hsw, hw1, hw2, hw3⟩ : ∃ sw wops,
        (if last.width = some w then [] else c!" " ++ F.fmt w ++ c!" w") = sw ∧ OpsTo sw wops ∧
        Sep (bytesOf sw) ∧ ∀ m1 : MS, m1.path = [] → m1.gs.width = m.gs.width →
          exec m1 wops = some ({ m1 with gs := { m1.gs with width := F.b w } }, []) := by
      by_cases hlw : last.width = some w
      · refine ⟨[], [], by rw [if_pos hlw], OpsTo.nil, by simp [bytesOf], ?_⟩
        intro m1 hp1 hm1
        rw [hi.width w hlw] at hm1
        simp only [exec, ← hm1]
      · refine ⟨c!" " ++ F.fmt w ++ c!" w", [⟨[.num (F.b w)], b!"w"⟩], by rw [if_neg hlw], ?_, sep_space _, ?_⟩
        · exact (numsOp_ops (l := [F.fmt w]) (w := c!"w") (by simp [hF.1]) (by decide) (by decide)).space
        · intro m1 hp1 _
          exact exec_one (step_w hp1)
    -- the style part
    obtain ⟨sl, lops, hsl, hls1, hls2, hls3⟩ : ∃ sl lops,
        (if last.style = some ls then [] else ls) = sl ∧ OpsTo sl lops ∧
        Sep (bytesOf sl) ∧ ∀ m1 : MS, m1.path = [] → m1.gs.cap = m.gs.cap → m1.gs.dash = m.gs.dash →
          exec m1 lops = some ({ m1 with gs := { m1.gs with cap := cap, dash := dash } }, []) := by
      by_cases hls : last.style = some ls
      · refine ⟨[], [], by rw [if_pos hls], OpsTo.nil, by simp [bytesOf], ?_⟩
        intro m1 hp1 hm1 hm2
        obtain ⟨hc, hd⟩ := hi.style ls hls cap dash hl3
        rw [hc] at hm1
        rw [hd] at hm2
        simp only [exec, ← hm1, ← hm2]
      · refine ⟨ls, _, by rw [if_neg hls], hl3, hl2, ?_⟩
        intro m1 hp1 _ _
        exact exec_cons_of (step_J hp1) (exec_one (step_d hp1))
    rw [hsw, hsl]
    have hex := exec_append_of h4 (exec_append_of (hw3 _ (by exact hi.path) rfl) (exec_append_of
      (hls3 _ (by exact hi.path) rfl rfl) (exec_cons_of (o := ⟨[.num (F.b x1), .num (F.b y1)], b!"m"⟩)
        (step_m (by exact hi.text)) (exec_cons_of (o := ⟨[.num (F.b x2), .num (F.b y2)], b!"l"⟩)
        (step_l (by exact hi.text) (by simp)) (exec_one (step_S (by simp)))))))
    refine ⟨_, _, _, _, _, rfl, ?_, ?_, by simp, hex, ?_, ?_, rfl, rfl⟩
    · have e : s ++ sw ++ sl ++ c!" " ++ F.fmt x1 ++ c!" " ++ F.fmt y1 ++ c!" m " ++ F.fmt x2 ++ c!" " ++
            F.fmt y2 ++ c!" l S" = s ++ (sw ++ (sl ++ (' ' :: (numsOp [F.fmt x1, F.fmt y1] c!"m" ++ ' ' ::
              (numsOp [F.fmt x2, F.fmt y2] c!"l" ++ ' ' :: c!"S"))))) := by
        simp [numsOp]
      rw [e]
      have o1 := (numsOp_ops (l := [F.fmt x1, F.fmt y1]) (w := c!"m") (by simp [hF.1]) (by decide)
        (by decide)).append_space ((numsOp_ops (l := [F.fmt x2, F.fmt y2]) (w := c!"l") (by simp [hF.1])
        (by decide) (by decide)).append_space (opsTo_word c!"S" (by decide) (by decide)))
      exact h2.append (hw1.append (hls1.append o1.space (sep_space _)) (sep_append hls2 (sep_space _)))
        (sep_append hw2 (sep_append hls2 (sep_space _)))
    · have e : s ++ sw ++ sl ++ c!" " ++ F.fmt x1 ++ c!" " ++ F.fmt y1 ++ c!" m " ++ F.fmt x2 ++ c!" " ++
            F.fmt y2 ++ c!" l S" = s ++ (sw ++ (sl ++ (' ' :: (numsOp [F.fmt x1, F.fmt y1] c!"m" ++ ' ' ::
              (numsOp [F.fmt x2, F.fmt y2] c!"l" ++ ' ' :: c!"S"))))) := by
        simp [numsOp]
      rw [e]
      exact sep_append h3 (sep_append hw2 (sep_append hls2 (sep_space _)))
    · refine ⟨rfl, hi.text, hi.fill, ?_, ?_, ?_⟩
      · intro c' hc'
        cases hc'
        exact ⟨hd2, hd3.symm⟩
      · intro w' hw'
        cases hw'
        rfl
      · intro s' hs' cap' dash' ho
        cases hs'
        have := hl3.unique ho
        simp only [List.cons.injEq, Op.mk.injEq, Operand.num.injEq, Operand.arr.injEq, and_true] at this
        exact ⟨this.1, Prod.ext this.2.1 this.2.2⟩
    · simp [Paints, hi.path, hdash]

theorem graphicsLoop_ops {F : NumFmt} (hF : F.Ok) (gs0 : GS) : ∀ (l : List Graphic) (last : GLast) (m : MS),
    GInv F last m → (∀ g ∈ l, g.Ok) → m.gs.cms = gs0.cms →
    ∃ s ops m' ev, graphicsLoop F last l = .ok s ∧ OpsTo s ops ∧ Sep (bytesOf s) ∧ (l ≠ [] → s ≠ []) ∧
      exec m ops = some (m', ev) ∧ List.Forall₂ (Paints F gs0) l ev ∧ m'.path = [] ∧ m'.text = none ∧
      m'.stack = m.stack := by
  intro l
  induction l with
  | nil =>
    intro last m hi _ _
    exact ⟨[], [], m, [], rfl, OpsTo.nil, by simp [bytesOf], by simp, rfl, .nil, hi.path, hi.text, rfl⟩
  | cons g l ih =>
    intro last m hi hok hcm
    obtain ⟨last', s, ops, m', e, h1, h2, h3, h4, h5, h6, h7, h8, h9⟩ := graphicStep_ops hF hi (hok g (by simp))
    obtain ⟨s2, ops2, m2, ev, g1, g2, g3, g4, g5, g6, g7, g8, g9⟩ := ih last' m' h6
      (fun g hg => hok g (by simp [hg])) (h9.trans hcm)
    refine ⟨s ++ s2, ops ++ ops2, m2, [e] ++ ev, by simp [graphicsLoop, h1, g1], h2.append g2 g3,
      sep_append h3 g3, by simp [h4], exec_append_of h5 g5, ?_, g7, g8, g9.trans h8⟩
    refine .cons ?_ g6
    cases g <;> cases e <;> simp only [Paints, hcm] at h7 ⊢ <;> exact h7

/-- C18, partial: interpreting the stream built for any list of graphics paints exactly these graphics
in order, each with its own colour, width and dash pattern, and gives back the surrounding graphics
state. Missing: graphics whose colour is `None`, which inherit the colour of the previous one
(`C18_no_colour_false`), and colours with four components, which raise. -/
theorem C18_paints_partial (F : NumFmt) (hF : F.Ok) (l : List Graphic) (hok : ∀ g ∈ l, g.Ok) (m : MS)
    (hp : m.path = []) (ht : m.text = none) :
    ∃ s ev, createGraphics F l = .ok s ∧ execStream m (bytesOf s) = some (m, ev) ∧
      List.Forall₂ (Paints F m.gs) l ev := by
  obtain ⟨s, ops, m', ev, h1, h2, h3, h4, h5, h6, h7, h8, h9⟩ := graphicsLoop_ops hF m.gs l
    ⟨none, none, none, none⟩ { m with stack := m.gs :: m.stack }
    ⟨hp, ht, by simp, by simp, by simp, by simp⟩ hok rfl
  by_cases hs : s = []
  · have hl : l = [] := by
      by_cases hl : l = []
      · exact hl
      · exact absurd hs (h4 hl)
    subst hl
    exact ⟨[], [], rfl, by simp [execStream, OpsTo.nil.ops, exec], .nil⟩
  · refine ⟨c!" q" ++ s ++ c!" Q", ev, by simp [createGraphics, h1, hs], ?_, h6⟩
    have ho : OpsTo (c!" q" ++ s ++ c!" Q") ([⟨[], b!"q"⟩] ++ ops ++ [⟨[], b!"Q"⟩]) :=
      (((opsTo_word c!"q" (by decide) (by decide)).space).append h2 h3).append_space
        (opsTo_word c!"Q" (by decide) (by decide))
    rw [execStream, ho.ops]
    have := exec_append_of (exec_append_of (exec_one (step_q hp ht)) h5)
      (exec_one (step_Q h9 h7 h8))
    simp only [this, List.nil_append, List.append_nil]
    obtain ⟨gs', st', pa', te'⟩ := m'
    simp only at h7 h8
    rw [h7, h8]
    obtain ⟨gs, st, pa, te⟩ := m
    simp only at hp ht
    rw [hp, ht]

/-- C18: a list with a line of unknown style is rejected whatever comes before and after it. -/
theorem C18_unknown_style_rejected (F : NumFmt) (l : List Graphic) (c : PDFColor Rat) (w : Rat)
    (style : Str) (x1 y1 x2 y2 : Rat) (hm : Graphic.line c w style x1 y1 x2 y2 ∈ l)
    (hst : style ≠ c!"dashed" ∧ style ≠ c!"dotted" ∧ style ≠ c!"solid") :
    ∃ e, createGraphics F l = .error e := by
  have gen : ∀ (l : List Graphic), Graphic.line c w style x1 y1 x2 y2 ∈ l → ∀ last,
      ∃ e, graphicsLoop F last l = .error e := by
    intro l
    induction l with
    | nil => intro h; simp at h
    | cons g l ih =>
      intro hm last
      rw [graphicsLoop]
      rcases List.mem_cons.1 hm with rfl | hm
      · have : ∃ e, graphicStep F last (.line c w style x1 y1 x2 y2) = .error e := by
          simp only [graphicStep]
          cases colorPart F c last.color with
          | error e => exact ⟨e, rfl⟩
          | ok r =>
            have : lineStyle F style w = .error .exception := by
              simp [lineStyle, hst]
            exact ⟨.exception, by simp [this]⟩
        obtain ⟨e, he⟩ := this
        exact ⟨e, by simp [he]⟩
      · cases graphicStep F last g with
        | error e => exact ⟨e, rfl⟩
        | ok r =>
          obtain ⟨e, he⟩ := ih hm r.1
          exact ⟨e, by simp [he]⟩
  obtain ⟨e, he⟩ := gen l hm ⟨none, none, none, none⟩
  exact ⟨e, by simp [createGraphics, he]⟩

/-- a sample way of writing numbers, for the examples -/
def sampleFmt : NumFmt := ⟨fun q => intStr q.floor, fun q => intStr q.floor⟩

/-- a sample graphics state -/
def sampleGS : GS := ⟨[b!"7"], [b!"7"], b!"9", b!"0", ([], b!"0"), [], (b!"F1", b!"1"), b!"0", b!"0"⟩

/-- C18 is false for colour `None`: the second rectangle has no colour of its own and is painted in
the red of the first one. -/
theorem C18_no_colour_false :
    ∃ s, createGraphics sampleFmt [.fill ⟨some [1, 0, 0], false⟩ 0 0 5 5, .fill ⟨none, false⟩ 9 9 5 5] = .ok s ∧
    ∃ ev g1 g2 p1 p2, execStream ⟨sampleGS, [], [], none⟩ (bytesOf s) = some (⟨sampleGS, [], [], none⟩, ev) ∧
      ev = [.fill g1 p1, .fill g2 p2] ∧ g2.fill = [b!"1", b!"0", b!"0"] := by
  refine ⟨c!" q 1 0 0 rg 0 0 5 5 re F  9 9 5 5 re F Q", by decide +kernel, ?_⟩
  refine ⟨[.fill { sampleGS with fill := [b!"1", b!"0", b!"0"] } [.rect b!"0" b!"0" b!"5" b!"5"],
    .fill { sampleGS with fill := [b!"1", b!"0", b!"0"] } [.rect b!"9" b!"9" b!"5" b!"5"]], _, _, _, _,
    by decide +kernel, rfl, rfl⟩

example : createGraphics sampleFmt [.line ⟨some [1], true⟩ 1 c!"solid" 0 0 5 5,
    .line ⟨some [1], true⟩ 2 c!"solid" 0 0 5 5] =
    .ok c!" q 1 G 1 w 0 J [] 0 d 0 0 m 5 5 l S 2 w 0 0 m 5 5 l S Q" := by decide +kernel
example : ∀ g ∈ [Graphic.fill ⟨some [1, 0, 0], false⟩ 0 0 5 5, .line ⟨some [1], true⟩ 1 c!"dotted" 0 0 5 5],
    g.Ok := by
  intro g hg
  simp only [List.mem_cons, List.not_mem_nil, or_false] at hg
  rcases hg with rfl | rfl
  · exact ⟨⟨_, rfl, .inr rfl⟩, rfl⟩
  · exact ⟨⟨_, rfl, .inl rfl⟩, rfl, .inr (.inl rfl)⟩
example : Graphic.line ⟨some [1], true⟩ 1 c!"wavy" 0 0 5 5 ∈ [Graphic.line ⟨some [1], true⟩ 1 c!"wavy" 0 0 5 5] := by
  simp

end Verif
