import Verif.Props.C18_Graphics
/-! Whatever fills and lines `create_graphics` accepts: what it writes shows no text and no image, and leaves the graphics state as it was. -/
namespace Verif
open Spec

/-- events that show neither text nor images -/
def Event.mute : Event → Prop
  | .fill .. => True
  | .stroke .. => True
  | _ => False

/-- operators that show neither text nor images and do not move the coordinates -/
def SilentOps (s : Str) : Prop :=
  ∃ ops, OpsTo s ops ∧ Sep (bytesOf s) ∧ ∀ m : MS, m.path = [] → m.text = none →
    ∃ gs evs, exec m ops = some ({ m with gs := gs }, evs) ∧ gs.cms = m.gs.cms ∧ ∀ e ∈ evs, Event.mute e

theorem SilentOps.nil : SilentOps [] :=
  ⟨[], OpsTo.nil, by simp [bytesOf], fun m _ _ => ⟨m.gs, [], rfl, rfl, by simp⟩⟩

theorem SilentOps.append {a b : Str} (ha : SilentOps a) (hb : SilentOps b) : SilentOps (a ++ b) := by
  obtain ⟨o, h1, h2, h3⟩ := ha
  obtain ⟨o', g1, g2, g3⟩ := hb
  refine ⟨o ++ o', h1.append g1 g2, sep_append h2 g2, ?_⟩
  intro m hp ht
  obtain ⟨gs, evs, e1, e2, e3⟩ := h3 m hp ht
  obtain ⟨gs', evs', f1, f2, f3⟩ := g3 { m with gs := gs } hp ht
  refine ⟨gs', evs ++ evs', exec_append_of e1 f1, f2.trans e2, ?_⟩
  intro e he
  rcases List.mem_append.1 he with he | he
  · exact e3 e he
  · exact f3 e he

theorem colorPart_silent {F : NumFmt} (hF : F.Ok) {c : PDFColor Rat} {last last' : Option (PDFColor Rat)} {s : Str}
    (h : colorPart F c last = .ok (last', s)) : SilentOps s := by
  unfold colorPart at h
  split at h
  · cases hs : c.str F.fmt with
    | error e => rw [hs] at h; cases h
    | ok t =>
      rw [hs] at h
      cases h
      by_cases hw : Writable c
      · obtain ⟨t', o, h1, h2, h3⟩ := color_ops hF hw
        rw [h1] at hs
        cases hs
        refine ⟨[o], h2.space, sep_space _, ?_⟩
        intro m hp _
        refine ⟨_, [], exec_one (h3 m hp), ?_, by simp⟩
        split <;> rfl
      · have : t = [] := by
          unfold PDFColor.str at hs
          split at hs
          · cases hs; rfl
          · rename_i g hg; exact absurd ⟨_, hg, Or.inl rfl⟩ hw
          · rename_i a b d hg; exact absurd ⟨_, hg, Or.inr rfl⟩ hw
          · cases hs
        subst this
        exact ⟨[], OpsTo.nil.space, sep_space _, fun m _ _ => ⟨m.gs, [], rfl, rfl, by simp⟩⟩
  · cases h
    exact .nil

theorem lineStyle_silent {F : NumFmt} (hF : F.Ok) {style : Str} {w : Rat} {s : Str} (h : lineStyle F style w = .ok s) : SilentOps s := by
  obtain ⟨cap, dash, hd⟩ : ∃ cap dash, dashOf F style w = some (cap, dash) := by
    unfold lineStyle at h
    unfold dashOf
    split at h
    · rename_i e; rw [if_pos e]; exact ⟨_, _, rfl⟩
    · rename_i e
      rw [if_neg e]
      split at h
      · rename_i e; rw [if_pos e]; exact ⟨_, _, rfl⟩
      · rename_i e
        rw [if_neg e]
        split at h
        · rename_i e; rw [if_pos e]; exact ⟨_, _, rfl⟩
        · cases h
  obtain ⟨t, h1, h2, h3⟩ := lineStyle_ops hF hd
  rw [h1] at h
  cases h
  refine ⟨_, h3, h2, ?_⟩
  intro m hp _
  exact ⟨{ m.gs with cap := cap, dash := dash }, [], exec_cons_of (step_J hp) (exec_one (step_d (by exact hp))), rfl, by simp⟩

theorem graphicStep_silent {F : NumFmt} (hF : F.Ok) {last last' : GLast} {g : Graphic} {s : Str} (h : graphicStep F last g = .ok (last', s)) :
    SilentOps s := by
  cases g with
  | other => cases h; exact .nil
  | fill c x y w hh =>
    simp only [graphicStep] at h
    cases hc : colorPart F c last.fill with
    | error e => rw [hc] at h; cases h
    | ok r =>
      rw [hc] at h
      cases h
      have e : r.2 ++ c!" " ++ F.fmt x ++ c!" " ++ F.fmt y ++ c!" " ++ F.fmt w ++ c!" " ++ F.fmt hh ++ c!" re F" =
          r.2 ++ ' ' :: (numsOp [F.fmt x, F.fmt y, F.fmt w, F.fmt hh] c!"re" ++ ' ' :: c!"F") := by
        simp [numsOp]
      rw [e]
      refine (colorPart_silent hF (last' := r.1) hc).append ⟨_, ((numsOp_ops (l := [F.fmt x, F.fmt y, F.fmt w, F.fmt hh]) (w := c!"re")
        (by simp [hF.1]) (by decide) (by decide)).append_space (opsTo_word c!"F" (by decide) (by decide))).space, sep_space _, ?_⟩
      intro m hp ht
      refine ⟨m.gs, [.fill m.gs [.rect (F.b x) (F.b y) (F.b w) (F.b hh)]], ?_, rfl, by simp [Event.mute]⟩
      have := exec_append_of (exec_one (o := ⟨[.num (F.b x), .num (F.b y), .num (F.b w), .num (F.b hh)], b!"re"⟩) (step_re (m := m) ht))
        (exec_one (step_F (by simp)))
      rw [hp] at this
      refine Eq.trans this ?_
      obtain ⟨gs, st, pa, te⟩ := m
      cases hp
      rfl
  | line c w style x1 y1 x2 y2 =>
    simp only [graphicStep] at h
    cases hc : colorPart F c last.color with
    | error e => rw [hc] at h; cases h
    | ok r =>
      rw [hc] at h
      simp only at h
      cases hl : lineStyle F style w with
      | error e => rw [hl] at h; cases h
      | ok ls =>
        rw [hl] at h
        simp only at h
        cases h
        have e : ∀ sw sl : Str, r.2 ++ sw ++ sl ++ c!" " ++ F.fmt x1 ++ c!" " ++ F.fmt y1 ++ c!" m " ++ F.fmt x2 ++ c!" " ++ F.fmt y2 ++ c!" l S" =
            r.2 ++ (sw ++ (sl ++ (' ' :: (numsOp [F.fmt x1, F.fmt y1] c!"m" ++ ' ' :: (numsOp [F.fmt x2, F.fmt y2] c!"l" ++ ' ' :: c!"S"))))) := by
          simp [numsOp]
        rw [e]
        refine (colorPart_silent hF (last' := r.1) hc).append (.append ?_ (.append ?_ ?_))
        · split
          · exact .nil
          · refine ⟨_, (numsOp_ops (l := [F.fmt w]) (w := c!"w") (by simp [hF.1]) (by decide) (by decide)).space, sep_space _, ?_⟩
            intro m hp _
            exact ⟨{ m.gs with width := F.b w }, [], exec_one (step_w hp), rfl, by simp⟩
        · split
          · exact .nil
          · exact lineStyle_silent hF hl
        · refine ⟨_, ((numsOp_ops (l := [F.fmt x1, F.fmt y1]) (w := c!"m") (by simp [hF.1]) (by decide)
            (by decide)).append_space ((numsOp_ops (l := [F.fmt x2, F.fmt y2]) (w := c!"l") (by simp [hF.1])
            (by decide) (by decide)).append_space (opsTo_word c!"S" (by decide) (by decide)))).space, sep_space _, ?_⟩
          intro m hp ht
          refine ⟨m.gs, [.stroke m.gs [.move (F.b x1) (F.b y1), .line (F.b x2) (F.b y2)]], ?_, rfl, by simp [Event.mute]⟩
          have := exec_append_of (exec_one (o := ⟨[.num (F.b x1), .num (F.b y1)], b!"m"⟩) (step_m (m := m) ht))
            (exec_append_of (exec_one (o := ⟨[.num (F.b x2), .num (F.b y2)], b!"l"⟩) (step_l (by exact ht) (by simp))) (exec_one (step_S (by simp))))
          rw [hp] at this
          refine Eq.trans this ?_
          obtain ⟨gs, st, pa, te⟩ := m
          cases hp
          rfl

theorem graphicsLoop_silent {F : NumFmt} (hF : F.Ok) : ∀ (l : List Graphic) {last : GLast} {s : Str}, graphicsLoop F last l = .ok s → SilentOps s := by
  intro l
  induction l with
  | nil => intro last s h; cases h; exact .nil
  | cons g l ih =>
    intro last s h
    simp only [graphicsLoop] at h
    cases h1 : graphicStep F last g with
    | error e => rw [h1] at h; cases h
    | ok r =>
      rw [h1] at h
      simp only at h
      cases h2 : graphicsLoop F r.1 l with
      | error e => rw [h2] at h; cases h
      | ok t =>
        rw [h2] at h
        cases h
        exact (graphicStep_silent hF (last' := r.1) h1).append (ih h2)

/-- what is written for fills and lines paints them and nothing else, and leaves the graphics state as it was -/
theorem createGraphics_silent {F : NumFmt} (hF : F.Ok) {l : List Graphic} {s : Str} (h : createGraphics F l = .ok s) :
    ∃ ops, OpsTo s ops ∧ Sep (bytesOf s) ∧ ∀ m : MS, m.path = [] → m.text = none → ∃ evs, exec m ops = some (m, evs) ∧ ∀ e ∈ evs, Event.mute e := by
  unfold createGraphics at h
  cases h1 : graphicsLoop F ⟨none, none, none, none⟩ l with
  | error e => rw [h1] at h; cases h
  | ok t =>
    rw [h1] at h
    cases h
    split
    · exact ⟨[], OpsTo.nil, by simp [bytesOf], fun m _ _ => ⟨[], rfl, by simp⟩⟩
    · obtain ⟨ops, g1, g2, g3⟩ := graphicsLoop_silent hF l h1
      refine ⟨[⟨[], b!"q"⟩] ++ ops ++ [⟨[], b!"Q"⟩], (((opsTo_word c!"q" (by decide) (by decide)).space).append g1 g2).append_space
        (opsTo_word c!"Q" (by decide) (by decide)), sep_space _, ?_⟩
      intro m hp ht
      obtain ⟨gs, evs, e1, -, e3⟩ := g3 { m with stack := m.gs :: m.stack } hp ht
      refine ⟨evs, ?_, e3⟩
      have := exec_append_of (exec_append_of (exec_one (step_q hp ht)) e1) (exec_one (step_Q rfl (by exact hp) (by exact ht)))
      simpa using this

end Verif
