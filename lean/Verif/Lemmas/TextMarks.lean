import Verif.Spec.TextMarks
import Verif.Lemmas.TextOps
/-! What is drawn and noted for the pieces of a text. -/
namespace Verif
open Spec

/-- the colour part, for all machines -/
theorem colorPart_run {F : NumFmt} (hF : F.Ok) {c : PDFColor Rat} (hc : Writable c) (last : Option (PDFColor Rat)) :
    ∃ last' s ops, colorPart F c last = .ok (last', s) ∧ OpsTo s ops ∧ Sep (bytesOf s) ∧
      ((∀ d, last = some d → d.stroke = c.stroke) → ∃ d, last' = some d ∧ d.stroke = c.stroke ∧ F.comps d = F.comps c) ∧
      ∀ m : MS, m.path = [] → (∀ d, last = some d → d.stroke = c.stroke ∧ (if c.stroke then m.gs.stroke else m.gs.fill) = F.comps d) →
        exec m ops = some ({ m with gs := if c.stroke then { m.gs with stroke := F.comps c } else { m.gs with fill := F.comps c } }, []) := by
  unfold colorPart
  by_cases hd : colorDiffers c last = true
  · rw [if_pos hd]
    obtain ⟨s, o, h1, h2, h3⟩ := color_ops hF hc
    rw [h1]
    exact ⟨some c, ' ' :: s, [o], rfl, h2.space, sep_space _, fun _ => ⟨c, rfl, rfl, rfl⟩, fun m hp _ => exec_one (h3 m hp)⟩
  · rw [if_neg hd]
    obtain ⟨l, hcl, hlen⟩ := hc
    cases last with
    | none => simp [colorDiffers, hcl] at hd
    | some d =>
      simp only [colorDiffers, Bool.not_eq_true, Bool.not_eq_false', Bool.and_eq_true, beq_iff_eq] at hd
      have h3 : F.comps d = F.comps c := by simp [NumFmt.comps, hd.1]
      refine ⟨some d, [], [], rfl, OpsTo.nil, by simp [bytesOf], fun h => ⟨d, rfl, h d rfl, h3⟩, ?_⟩
      intro m hp hl
      obtain ⟨h1, h2⟩ := hl d rfl
      rw [h3] at h2
      simp only [exec]
      cases hcs : c.stroke with
      | true => simp only [hcs, if_true] at h2 ⊢; rw [← h2]
      | false =>
        simp only [hcs] at h2 ⊢
        have : m.gs.fill = F.comps c := by simpa using h2
        simp [← this]

/-- what is remembered of the graphics of a text has the right kind -/
def TGLast.Kind (last : TGLast) : Prop := (∀ c, last.fill = some c → c.stroke = false) ∧ ∀ c, last.color = some c → c.stroke = true

/-- what is remembered of the graphics agrees with the machine -/
structure TgInv (F : TFmt) (last : TGLast) (m : MS) : Prop where
  path : m.path = []
  text : m.text = none
  fill : ∀ c, last.fill = some c → m.gs.fill = F.comps c
  color : ∀ c, last.color = some c → m.gs.stroke = F.comps c
  width : ∀ w, last.stroke = some w → m.gs.width = F.b w

/-- the colours of a look can be written -/
def TLook.Ok (x : TLook) : Prop := (x.bg.color.isSome → Writable x.bg ∧ x.bg.stroke = false) ∧ (x.underline → Writable x.st.color)

/-- an event paints the background or the underline with the numbers as they are written -/
def DecoEvent (F : TFmt) (gs0 : GS) : Deco → Event → Prop
  | .back k, ev => ∃ gs, ev = .fill gs [.rect (F.b k.x) (F.b (k.y + k.part.look.st.rise - k.part.look.st.size / 4)) (F.b k.w)
      (F.b (k.part.look.st.size * (6 / 5)))] ∧ gs.fill = F.comps k.part.look.bg ∧ gs.cms = gs0.cms
  | .under k, ev => ∃ gs, ev = .stroke gs [.move (F.b k.x) (F.b (k.y + k.part.look.st.rise - k.part.look.st.size * (7 / 100))),
      .line (F.b (k.x + k.w)) (F.b (k.y + k.part.look.st.rise - k.part.look.st.size * (7 / 100)))] ∧
      gs.stroke = F.comps k.part.look.st.color ∧ gs.cms = gs0.cms ∧ gs.cap = gs0.cap ∧ gs.dash = gs0.dash ∧
      gs.width = F.b (k.part.look.st.size * (7 / 100))

/-- some text draws some things -/
def Draws (F : TFmt) (last last' : TGLast) (t : Str) (ds : List Deco) : Prop :=
  (last.Kind → last'.Kind) ∧ ∃ ops, OpsTo t ops ∧ Sep (bytesOf t) ∧ ∀ m : MS, last.Kind → TgInv F last m → ∃ gs evs, exec m ops = some ({ m with gs := gs }, evs) ∧
    TgInv F last' { m with gs := gs } ∧ gs.cms = m.gs.cms ∧ gs.cap = m.gs.cap ∧ gs.dash = m.gs.dash ∧ List.Forall₂ (DecoEvent F m.gs) ds evs

theorem Draws.nil (F : TFmt) (last : TGLast) : Draws F last last [] [] :=
  ⟨id, [], OpsTo.nil, by simp [bytesOf], fun m _ hi => ⟨m.gs, [], rfl, hi, rfl, rfl, rfl, .nil⟩⟩

theorem DecoEvent.of {F : TFmt} {g g' : GS} (h1 : g'.cms = g.cms) (h2 : g'.cap = g.cap) (h3 : g'.dash = g.dash) {d : Deco} {e : Event} (h : DecoEvent F g' d e) :
    DecoEvent F g d e := by
  cases d with
  | back k => obtain ⟨gs, a, b, c⟩ := h; exact ⟨gs, a, b, c.trans h1⟩
  | under k => obtain ⟨gs, a, b, c, d, e, f⟩ := h; exact ⟨gs, a, b, c.trans h1, d.trans h2, e.trans h3, f⟩

theorem Draws.append {F : TFmt} {l1 l2 l3 : TGLast} {s t : Str} {a b : List Deco} (h1 : Draws F l1 l2 s a) (h2 : Draws F l2 l3 t b) :
    Draws F l1 l3 (s ++ t) (a ++ b) := by
  obtain ⟨k1, o1, a1, a2, a3⟩ := h1
  obtain ⟨k2, o2, b1, b2, b3⟩ := h2
  refine ⟨k2 ∘ k1, o1 ++ o2, a1.append b1 b2, sep_append a2 b2, ?_⟩
  intro m hk hi
  obtain ⟨gs, evs, c1, c2, c3, c4, c5, c6⟩ := a3 m hk hi
  obtain ⟨gs', evs', d1, d2, d3, d4, d5, d6⟩ := b3 _ (k1 hk) c2
  refine ⟨gs', evs ++ evs', exec_append_of c1 d1, d2, d3.trans c3, d4.trans c4, d5.trans c5, List.rel_append c6 ?_⟩
  exact d6.imp fun _ _ h => h.of c3 c4 c5

theorem outputBackground_draws {F : TFmt} (hF : F.Ok) {j : Nat} {line : TLine} {p : TPart} (hp : p.look.Ok) {x y w : Rat} {last last' : TGLast} {s : Str}
    (h : outputBackground F p x y w last = .ok (last', s)) :
    Draws F last last' s (if p.look.bg.color.isSome then [.back ⟨j, line, p, x, y, w⟩] else []) := by
  unfold outputBackground at h
  by_cases hb : p.look.bg.color.isNone = true
  · rw [if_pos hb] at h
    simp only [Except.ok.injEq, Prod.mk.injEq] at h
    obtain ⟨rfl, rfl⟩ := h
    rw [if_neg (by simpa using hb)]
    exact Draws.nil F _
  · have hs : p.look.bg.color.isSome = true := by
      cases hc : p.look.bg.color with
      | none => simp [hc] at hb
      | some => rfl
    rw [if_neg hb] at h
    rw [if_pos hs]
    obtain ⟨hw, hst⟩ := hp.1 hs
    obtain ⟨l1, s1, ops, e1, e2, e3, e4, e5⟩ := colorPart_run hF.1 hw last.fill
    rw [e1] at h
    simp only [Except.ok.injEq, Prod.mk.injEq] at h
    obtain ⟨rfl, rfl⟩ := h
    rw [hst] at e4 e5
    simp only [Bool.false_eq_true, if_false] at e5
    refine ⟨?_, ops ++ [⟨[.num (F.b x), .num (F.b (y + p.look.st.rise - p.look.st.size / 4)), .num (F.b w), .num (F.b (p.look.st.size * (6 / 5)))], b!"re"⟩, ⟨[], b!"F"⟩], ?_, ?_, ?_⟩
    · intro hk
      obtain ⟨d, rfl, d2, -⟩ := e4 hk.1
      exact ⟨fun c hc => by cases hc; exact d2, hk.2⟩
    · have e : s1 ++ c!" " ++ F.fmt x ++ c!" " ++ F.fmt (y + p.look.st.rise - p.look.st.size / 4) ++ c!" " ++ F.fmt w ++ c!" " ++ F.fmt (p.look.st.size * (6 / 5)) ++
          c!" re F" = s1 ++ ' ' :: (numsOp [F.fmt x, F.fmt (y + p.look.st.rise - p.look.st.size / 4), F.fmt w, F.fmt (p.look.st.size * (6 / 5))] c!"re" ++ ' ' :: c!"F") := by
        simp [numsOp]
      rw [e]
      exact e2.append_space ((numsOp_ops (l := [F.fmt x, F.fmt (y + p.look.st.rise - p.look.st.size / 4), F.fmt w, F.fmt (p.look.st.size * (6 / 5))]) (w := c!"re")
        (by simp [hF.1.1]) (by decide) (by decide)).append_space (opsTo_word c!"F" (by decide) (by decide)))
    · rw [List.append_assoc, List.append_assoc, List.append_assoc, List.append_assoc, List.append_assoc, List.append_assoc, List.append_assoc, List.append_assoc]
      exact sep_append e3 (sep_space _)
    · rintro ⟨g0, st, pa, te⟩ hk hi
      obtain rfl := hi.path
      obtain rfl := hi.text
      have h5 := e5 _ rfl fun d hd => ⟨hk.1 d hd, hi.fill d hd⟩
      obtain ⟨d, rfl, d2, d3⟩ := e4 hk.1
      have hex := exec_append_of h5 (exec_cons_of
        (o := ⟨[.num (F.b x), .num (F.b (y + p.look.st.rise - p.look.st.size / 4)), .num (F.b w), .num (F.b (p.look.st.size * (6 / 5)))], b!"re"⟩)
        (step_re rfl) (exec_one (step_F (by simp))))
      refine ⟨_, _, hex, ?_, rfl, rfl, rfl, .cons ?_ .nil⟩
      · exact ⟨rfl, rfl, fun c hc => by cases hc; exact d3.symm, hi.color, hi.width⟩
      · exact ⟨_, rfl, rfl, rfl⟩

theorem outputUnderline_draws {F : TFmt} (hF : F.Ok) {j : Nat} {line : TLine} {p : TPart} (hp : p.look.Ok) {x y w : Rat} {last last' : TGLast} {s : Str}
    (h : outputUnderline F p x y w last = .ok (last', s)) :
    Draws F last last' s (if p.look.underline then [.under ⟨j, line, p, x, y, w⟩] else []) := by
  unfold outputUnderline at h
  by_cases hb : p.look.underline = true
  · rw [if_neg (by simp [hb])] at h
    rw [if_pos hb]
    have hw : Writable (⟨p.look.st.color.color, true⟩ : PDFColor Rat) := hp.2 hb
    obtain ⟨l1, s1, ops, e1, e2, e3, e4, e5⟩ := colorPart_run hF.1 hw last.color
    simp only at h
    rw [e1] at h
    simp only [Except.ok.injEq, Prod.mk.injEq] at h
    obtain ⟨rfl, rfl⟩ := h
    simp only [if_true] at e5
    generalize hsw : p.look.st.size * (7 / 100) = sw
    obtain ⟨tw, wops, htw, w1, w2, w3⟩ : ∃ tw wops, (if last.stroke = some sw then [] else c!" " ++ F.fmt sw ++ c!" w") = tw ∧ OpsTo tw wops ∧
        Sep (bytesOf tw) ∧ ∀ m : MS, m.path = [] → (last.stroke = some sw → m.gs.width = F.b sw) →
          exec m wops = some ({ m with gs := { m.gs with width := F.b sw } }, []) := by
      by_cases hl : last.stroke = some sw
      · refine ⟨[], [], by rw [if_pos hl], OpsTo.nil, by simp [bytesOf], ?_⟩
        intro m hpth hm
        have := hm hl
        simp only [exec, ← this]
      · refine ⟨c!" " ++ F.fmt sw ++ c!" w", [⟨[.num (F.b sw)], b!"w"⟩], by rw [if_neg hl], ?_, sep_space _, fun m hpth _ => exec_one (step_w hpth)⟩
        exact (numsOp_ops (l := [F.fmt sw]) (w := c!"w") (by simp [hF.1.1]) (by decide) (by decide)).space
    rw [htw]
    refine ⟨?_, ops ++ (wops ++ [⟨[.num (F.b x), .num (F.b (y + p.look.st.rise - sw))], b!"m"⟩, ⟨[.num (F.b (x + w)), .num (F.b (y + p.look.st.rise - sw))], b!"l"⟩, ⟨[], b!"S"⟩]), ?_, ?_, ?_⟩
    · intro hk
      obtain ⟨d, rfl, d2, -⟩ := e4 hk.2
      exact ⟨hk.1, fun c hc => by cases hc; exact d2⟩
    · have e : s1 ++ tw ++ c!" " ++ F.fmt x ++ c!" " ++ F.fmt (y + p.look.st.rise - sw) ++ c!" m " ++ F.fmt (x + w) ++ c!" " ++ F.fmt (y + p.look.st.rise - sw) ++ c!" l S" =
          s1 ++ (tw ++ (' ' :: (numsOp [F.fmt x, F.fmt (y + p.look.st.rise - sw)] c!"m" ++ ' ' :: (numsOp [F.fmt (x + w), F.fmt (y + p.look.st.rise - sw)] c!"l" ++ ' ' :: c!"S")))) := by
        simp [numsOp]
      rw [e]
      have o1 := (numsOp_ops (l := [F.fmt x, F.fmt (y + p.look.st.rise - sw)]) (w := c!"m") (by simp [hF.1.1]) (by decide)
        (by decide)).append_space ((numsOp_ops (l := [F.fmt (x + w), F.fmt (y + p.look.st.rise - sw)]) (w := c!"l") (by simp [hF.1.1])
        (by decide) (by decide)).append_space (opsTo_word c!"S" (by decide) (by decide)))
      exact e2.append (w1.append o1.space (sep_space _)) (sep_append w2 (sep_space _))
    · have e : s1 ++ tw ++ c!" " ++ F.fmt x ++ c!" " ++ F.fmt (y + p.look.st.rise - sw) ++ c!" m " ++ F.fmt (x + w) ++ c!" " ++ F.fmt (y + p.look.st.rise - sw) ++ c!" l S" =
          s1 ++ (tw ++ (' ' :: (numsOp [F.fmt x, F.fmt (y + p.look.st.rise - sw)] c!"m" ++ ' ' :: (numsOp [F.fmt (x + w), F.fmt (y + p.look.st.rise - sw)] c!"l" ++ ' ' :: c!"S")))) := by
        simp [numsOp]
      rw [e]
      exact sep_append e3 (sep_append w2 (sep_space _))
    · rintro ⟨g0, st, pa, te⟩ hk hi
      obtain rfl := hi.path
      obtain rfl := hi.text
      have h5 := e5 _ rfl fun d hd => ⟨hk.2 d hd, hi.color d hd⟩
      obtain ⟨d, rfl, d2, d3⟩ := e4 hk.2
      have hex := exec_append_of h5 (exec_append_of (w3 _ rfl (by intro hl; exact hi.width _ hl)) (exec_cons_of
        (o := ⟨[.num (F.b x), .num (F.b (y + p.look.st.rise - sw))], b!"m"⟩)
        (step_m rfl) (exec_cons_of (o := ⟨[.num (F.b (x + w)), .num (F.b (y + p.look.st.rise - sw))], b!"l"⟩)
        (step_l rfl (by simp)) (exec_one (step_S (by simp))))))
      refine ⟨_, _, hex, ?_, rfl, rfl, rfl, .cons ?_ .nil⟩
      · exact ⟨rfl, rfl, hi.fill, fun c hc => by cases hc; exact d3.symm, fun w hw => by cases hw; rfl⟩
      · subst hsw
        exact ⟨_, rfl, rfl, rfl, rfl, rfl, rfl⟩
  · rw [if_pos (by simpa using hb)] at h
    simp only [Except.ok.injEq, Prod.mk.injEq] at h
    obtain ⟨rfl, rfl⟩ := h
    rw [if_neg hb]
    exact Draws.nil F _

theorem outputGraphics_draws {F : TFmt} (hF : F.Ok) {j : Nat} {line : TLine} {p : TPart} (hp : p.look.Ok) {x y w : Rat} {last last' : TGLast} {s : Str}
    (h : outputGraphics F p x y w last = .ok (last', s)) : Draws F last last' s (Mark.decos ⟨j, line, p, x, y, w⟩) := by
  unfold outputGraphics at h
  cases h1 : outputBackground F p x y w last with
  | error e => rw [h1] at h; cases h
  | ok q =>
    rw [h1] at h
    simp only at h
    cases h2 : outputUnderline F p x y w q.1 with
    | error e => rw [h2] at h; cases h
    | ok q2 =>
      rw [h2] at h
      simp only [Except.ok.injEq, Prod.mk.injEq] at h
      obtain ⟨rfl, rfl⟩ := h
      exact (outputBackground_draws hF (j := j) (line := line) hp h1).append (outputUnderline_draws hF (j := j) (line := line) hp h2)

theorem pyIsSpace_escape (c : Char) : (escapeString [c]).all pyIsSpace = pyIsSpace c := by
  by_cases h1 : c = '\\'
  · subst h1; decide
  by_cases h2 : c = '('
  · subst h2; decide
  by_cases h3 : c = ')'
  · subst h3; decide
  simp [escapeString, replaceChar, h1, h2, h3]

theorem escapeString_flatMap (s : Str) : escapeString s = s.flatMap fun c => escapeString [c] := by
  unfold escapeString replaceChar
  induction s with
  | nil => rfl
  | cons c s ih => simp only [List.flatMap_cons, List.flatMap_append, ih, List.flatMap_nil, List.append_nil]

/-- a piece is marked when its text is not empty or blank -/
theorem marked_iff (p : TPart) : (cleanWords p.words ≠ [] ∧ strIsSpace (cleanWords p.words) = false) ↔ marked p = true := by
  have hall : ∀ s : Str, (escapeString s).all pyIsSpace = s.all pyIsSpace := by
    intro s
    rw [escapeString_flatMap, List.all_flatMap]
    congr 1
    funext c
    exact pyIsSpace_escape c
  have he : marked p = !(p.words.flatten.all pyIsSpace) := by
    unfold marked
    rw [List.not_all_eq_any_not]
  rw [he, ← hall]
  unfold strIsSpace cleanWords
  cases h : escapeString p.words.flatten with
  | nil => simp
  | cons c t => cases hc : pyIsSpace c <;> simp [hc]

theorem outputParts_marks {F : TFmt} (hF : F.Ok) {M : Metrics} {E : Encs} {y factor : Rat} (j : Nat) (line : TLine) :
    ∀ (parts : List TPart) (s s' : LoopSt), (∀ p ∈ parts, p.look.Ok) → outputParts F M E y factor parts s = .ok s' →
      s'.ids = (lineMarks j line y (fun p => p.width + p.spaces * factor) s.x parts).foldl (fun d k => partIds F k.part k.x k.y k.w d) s.ids ∧
      ∃ t, s'.graphics = s.graphics ++ t ∧ Draws F s.glast s'.glast t ((lineMarks j line y (fun p => p.width + p.spaces * factor) s.x parts).flatMap Mark.decos) := by
  intro parts
  induction parts with
  | nil =>
    intro s s' _ h
    simp only [outputParts, Except.ok.injEq] at h
    subst h
    exact ⟨rfl, [], by simp, Draws.nil F _⟩
  | cons p l ih =>
    intro s s' hok h
    simp only [outputParts] at h
    cases h1 : outputPart F M E y factor p s with
    | error e => rw [h1] at h; cases h
    | ok s1 =>
      rw [h1] at h
      simp only at h
      obtain ⟨i1, t, i2, i3⟩ := ih s1 s' (fun q hq => hok q (by simp [hq])) h
      unfold outputPart at h1
      simp only at h1
      cases h2 : outputText F M E p (cleanWords p.words) factor s.last with
      | error e => rw [h2] at h1; cases h1
      | ok q =>
        rw [h2] at h1
        simp only at h1
        by_cases hm : marked p = true
        · rw [if_pos ((marked_iff p).2 hm)] at h1
          cases h3 : outputGraphics F p s.x y (p.width + p.spaces * factor) s.glast with
          | error e => rw [h3] at h1; cases h1
          | ok q2 =>
            rw [h3] at h1
            simp only [Except.ok.injEq] at h1
            subst h1
            simp only [lineMarks, hm, if_true, List.singleton_append, List.foldl_cons, List.flatMap_cons]
            refine ⟨i1, q2.2 ++ t, by rw [i2]; simp, ?_⟩
            exact (outputGraphics_draws hF (hok p (by simp)) h3).append i3
        · rw [if_neg (fun hh => hm ((marked_iff p).1 hh))] at h1
          simp only [Except.ok.injEq] at h1
          subst h1
          simp only [lineMarks, hm, Bool.false_eq_true, if_false, List.nil_append]
          exact ⟨i1, t, i2, i3⟩

/-- the pieces of a run where the code has them -/
def codeMarks (cfg : TCfg) (width : Rat) : Nat → Geo → Rat → List (TLine × Bool) → List Mark
  | _, _, _, [] => []
  | j, g, y, l :: ls => lineMarks j l.1 (y - g.dy cfg l.1) (fun p => p.width + p.spaces * lineFactor cfg width l.2 l.1 g) (g.x cfg width l.1) l.1.parts ++
      codeMarks cfg width (j + 1) (g.next cfg width l.1) (y - g.dy cfg l.1) ls

theorem streamLines_marks {F : TFmt} (hF : F.Ok) {M : Metrics} {E : Encs} {cfg : TCfg} {enc : Option (Str × Str)} {width : Rat} :
    ∀ (ls : List (TLine × Bool)) (j : Nat) (o o' : OutSt), (∀ l ∈ ls, ∀ p ∈ l.1.parts, p.look.Ok) → streamLines F M E cfg enc width ls o = .ok o' →
      o'.ids = (codeMarks cfg width j o.geo o.y ls).foldl (fun d k => partIds F k.part k.x k.y k.w d) o.ids ∧
      ∃ t, o'.graphics = o.graphics ++ t ∧ Draws F o.glast o'.glast t ((codeMarks cfg width j o.geo o.y ls).flatMap Mark.decos) := by
  intro ls
  induction ls with
  | nil =>
    intro j o o' _ h
    simp only [streamLines, Except.ok.injEq] at h
    subst h
    exact ⟨rfl, [], by simp, Draws.nil F _⟩
  | cons l ls ih =>
    intro j o o' hok h
    simp only [streamLines] at h
    cases h1 : addLineToStream F M E cfg enc width o l with
    | error e => rw [h1] at h; cases h
    | ok o1 =>
      rw [h1] at h
      simp only at h
      obtain ⟨i1, t, i2, i3⟩ := ih (j + 1) o1 o' (fun q hq => hok q (by simp [hq])) h
      unfold addLineToStream at h1
      cases h2 : lineStart F E cfg enc width l.1 o with
      | error e => rw [h2] at h1; cases h1
      | ok s =>
        rw [h2] at h1
        simp only at h1
        cases h3 : outputParts F M E (o.y - o.geo.dy cfg l.1) (lineFactor cfg width l.2 l.1 o.geo) l.1.parts
            { x := o.geo.x cfg width l.1, last := o.last, glast := o.glast, text := o.text ++ s, graphics := o.graphics, ids := o.ids } with
        | error e => rw [h3] at h1; cases h1
        | ok r =>
          rw [h3] at h1
          simp only [Except.ok.injEq] at h1
          subst h1
          obtain ⟨k1, t1, k2, k3⟩ := outputParts_marks hF j l.1 _ _ _ (hok l (by simp)) h3
          simp only [codeMarks, List.foldl_append, List.flatMap_append]
          simp only at i1 i2 i3 k1 k2 k3
          rw [k1] at i1
          rw [k2] at i2
          exact ⟨i1, t1 ++ t, by rw [i2, List.append_assoc], k3.append i3⟩

end Verif
