import Verif.Props.C22_C23_Height
import Verif.Props.C09_C11_Strings
/-! C26: everything a run shows has its own font, size, colour and rise. -/
namespace Verif
open Spec

/-- the name of the font of a state -/
def PState.font (s : PState) : Str × Str := (s.family, s.mode)

/-- the lines of a run have styles of the content, and their fonts were reported -/
structure ULines (cfg : TCfg) (d0 : Bool) (r : RunSt) : Prop where
  lk : ∀ l ∈ r.lines, ∀ x ∈ looks l.1.parts, x ∈ contentLooks cfg.content ∧ x.st.font ∈ r.used
  bul : d0 = false → ∀ lc, cfg.list = some lc → ∀ l ∈ r.lines, l.1.parts ≠ [] → lc.state.font ∈ r.used

/-- what is known during a run -/
structure UInv (cfg : TCfg) (d0 : Bool) (r : RunSt) : Prop extends ULines cfg d0 r where
  cur : ∀ x ∈ looks r.cur.parts ++ looks r.cur.next, x ∈ contentLooks cfg.content ∧ x.st.font ∈ r.used ++ r.curUsed
  done : d0 = false → ∀ lc, cfg.list = some lc → r.pos.listDone = true ∨ looks r.cur.parts ++ looks r.cur.next ≠ [] →
    lc.state.font ∈ r.used ++ r.curUsed

theorem UInv.change {cfg : TCfg} {d0 : Bool} {r : RunSt} (h : UInv cfg d0 r) {l' : TLine} {p' : TPos}
    (hlk : ∀ x ∈ looks l'.parts ++ looks l'.next, x ∈ looks r.cur.parts ++ looks r.cur.next)
    (hp : p'.listDone = r.pos.listDone) : UInv cfg d0 { r with cur := l', pos := p' } := by
  refine ⟨⟨h.lk, h.bul⟩, fun x hx => h.cur x (hlk x hx), ?_⟩
  intro hd lc hlc hh
  apply h.done hd lc hlc
  rcases hh with hh | hh
  · exact Or.inl (hp ▸ hh)
  · right
    intro hn
    cases e : looks l'.parts ++ looks l'.next with
    | nil => exact hh e
    | cons x l => have := hlk x (by rw [e]; simp); rw [hn] at this; simp at this

theorem UInv.accept {cfg : TCfg} {d0 : Bool} {r : RunSt} (h : UInv cfg d0 r) {l nl : TLine} (b : Bool)
    (hlk : ∀ x ∈ looks l.parts, x ∈ looks r.cur.parts ++ looks r.cur.next)
    (hnl : ∀ x ∈ looks nl.parts ++ looks nl.next, x ∈ looks r.cur.parts ++ looks r.cur.next) :
    UInv cfg d0 { accept cfg r l b with cur := nl } := by
  have hsub : ∀ x ∈ r.used, x ∈ r.used ++ r.curUsed := fun x hx => by simp [hx]
  have ne : ∀ L : List TLook, (∀ x ∈ L, x ∈ looks r.cur.parts ++ looks r.cur.next) → L ≠ [] →
      looks r.cur.parts ++ looks r.cur.next ≠ [] := by
    intro L hL hne hn
    cases L with
    | nil => exact hne rfl
    | cons x L => have := hL x (by simp); rw [hn] at this; simp at this
  refine ⟨⟨?_, ?_⟩, ?_, ?_⟩
  · intro y hy x hx
    simp only [Verif.accept, List.mem_append, List.mem_singleton] at hy
    rcases hy with hy | rfl
    · exact ⟨(h.lk y hy x hx).1, hsub _ (h.lk y hy x hx).2⟩
    · exact h.cur x (hlk x hx)
  · intro hd lc hlc y hy hne
    simp only [Verif.accept, List.mem_append, List.mem_singleton] at hy
    rcases hy with hy | rfl
    · exact hsub _ (h.bul hd lc hlc y hy hne)
    · exact h.done hd lc hlc (Or.inr (ne _ hlk (by simpa [looks] using hne)))
  · intro x hx
    have := h.cur x (hnl x hx)
    simpa [Verif.accept] using this
  · intro hd lc hlc hh
    have := h.done hd lc hlc (hh.imp_right (ne _ hnl))
    simpa [Verif.accept] using this

theorem UInv.lines {cfg : TCfg} {d0 : Bool} {r : RunSt} (h : ULines cfg d0 r) {l : TLine} {nl : TLine} :
    ULines cfg d0 { reject r l with cur := nl } := ⟨h.lk, h.bul⟩

theorem uInv_hyp (M : Metrics) (cfg : TCfg) (width height : Rat) (d0 : Bool) :
    RunHyp M cfg width height (fun r _ _ => UInv cfg d0 r) (ULines cfg d0) where
  added := by
    intro r i k ws look ids w l' h wf hl hc hw hcase
    cases hcase with
    | first _ hsp hs hs' hp hn hm' wf' hl' hlk => exact h.change hlk rfl
    | accum _ hsp hcc hs' hp hn hm' wf' hl' hlk => exact h.change hlk rfl
  keep := by
    intro r i k ws look ids w l' res h wf hl hc hw hcase hres
    cases hcase with
    | first => rcases hres with h | h <;> cases h
    | accum => rcases hres with h | h <;> cases h
    | finished => rcases hres with h | h <;> cases h
    | ignored hsp hcc => exact h
    | preadded _ hsp hs hs' hp hn hm' hfit wf' hl' hlk => exact h.change hlk rfl
  finOk := by
    intro r i k ws look ids w l' nl b h wf hl hc hw hcase _ hh
    cases hcase with
    | finished _ _ hsp hs hp hn hm' hok hlast ns nf np na nt nn wf' hl' hlk =>
      refine h.accept b (fun x hx => hlk x (by simp [hx])) ?_
      intro x hx
      simp only [np, looks, List.map_nil, List.nil_append] at hx
      exact hlk x (by simp only [looks, List.mem_append]; exact Or.inr hx)
  finBad := by
    intro r i k ws look ids w l' nl h wf hl hc hw hcase hh
    exact ⟨h.lk, h.bul⟩
  part := by
    intro r i k ws look ids h wf hc
    have key : ∀ (cu : List (Str × Str)) (p : TPos) (w : Rat),
        (∀ x ∈ r.curUsed, x ∈ cu) → look.st.font ∈ cu →
        (d0 = false → ∀ lc, cfg.list = some lc → lc.state.font ∈ r.used ++ cu) →
        UInv cfg d0 { r with curUsed := cu, pos := p, cur := { r.cur.addLinePart look ids with maxWidth := w } } := by
      intro cu p w h1 h2 h3
      refine ⟨⟨h.lk, h.bul⟩, ?_, fun hd lc hlc _ => h3 hd lc hlc⟩
      intro x hx
      simp only [TLine.addLinePart, looks, List.map_append, List.map_cons, List.map_nil, List.mem_append, List.mem_singleton,
        TPart.new] at hx
      have old : x ∈ looks r.cur.parts ++ looks r.cur.next → x ∈ contentLooks cfg.content ∧ x.st.font ∈ r.used ++ cu := by
        intro hx
        refine ⟨(h.cur x hx).1, ?_⟩
        have := (h.cur x hx).2
        simp only [List.mem_append] at this ⊢
        exact this.imp_right (h1 _)
      rcases hx with hx | hx | hx
      · exact old (by simp only [looks, List.mem_append]; exact Or.inl hx)
      · exact old (by simp only [looks, List.mem_append]; exact Or.inr hx)
      · rw [hx]; exact ⟨contentLooks_mem hc, by simp [h2]⟩
    unfold partStart setupList
    cases hlist : cfg.list with
    | none => exact key _ _ r.cur.maxWidth (by simp +contextual) (by simp [PState.font]) (by rw [hlist]; intro _ _ h; cases h)
    | some lc =>
      simp only []
      by_cases hd : r.pos.listDone = true
      · simp only [hd, if_true]
        refine key (r.curUsed ++ [(look.st.family, look.st.mode)]) r.pos r.cur.maxWidth (by simp +contextual) (by simp [PState.font]) ?_
        intro hd0 lc' hlc
        have := h.done hd0 lc' hlc (Or.inl hd)
        simp only [List.mem_append] at this ⊢
        rcases this with this | this
        · exact Or.inl this
        · exact Or.inr (Or.inl this)
      · simp only [hd]
        refine key ((r.curUsed ++ [(lc.state.family, lc.state.mode)]) ++ [(look.st.family, look.st.mode)])
          { r.pos with listDone := true } _ (by simp +contextual) (by simp [PState.font]) ?_
        intro hd0 lc' hlc
        rw [hlist] at hlc
        cases hlc
        simp [PState.font]
  partEnd := by intro r i ws look ids h _ _; exact ⟨⟨h.lk, h.bul⟩, h.cur, h.done⟩
  skip := by intro r i h _ _; exact h
  brOk := by
    intro r i h _ _ hh
    have h' : UInv cfg d0 { r with pos := { r.pos with partAdded := i + 1, wordAdded := 0 } } := h.change (fun x hx => hx) rfl
    refine h'.accept true ?_ ?_
    · intro x hx; simpa [closeLine, looks] using hx
    · intro x hx; simp [TLine.new, looks] at hx
  brBad := by intro r i h _ _ _; exact ⟨h.lk, h.bul⟩

/-- the styles of the lines of a run are those of the content, and their fonts are reported; so is the font of
the text of the list, unless an earlier run got to the first text part -/
theorem textRun_used (M : Metrics) (cfg : TCfg) (width height : Rat) (pos : TPos)
    (hv : ValidPos cfg.content pos.lastPart pos.lastWord) : ULines cfg pos.listDone (textRun M cfg width height pos) := by
  refine textRun_ind (uInv_hyp M cfg width height pos.listDone) pos hv.2 hv.1 ?_ (R := ULines cfg pos.listDone) (fun r hr => hr) ?_ ?_
  · refine ⟨⟨by simp [runInit], by simp [runInit]⟩, by simp [runInit, TLine.new, looks], ?_⟩
    intro hd lc _ hh
    simp [runInit, TLine.new, looks, hd] at hh
  · intro r hr _ hh
    have := hr.accept (nl := TLine.new 0 [] 0) (l := closeLine true r.cur) true (by intro x hx; simpa [closeLine, looks] using hx)
      (by intro x hx; simp [TLine.new, looks] at hx)
    exact ⟨this.lk, this.bul⟩
  · intro r hr _ _; exact ⟨hr.lk, hr.bul⟩

/-! ### what is shown -/

/-- something to show: the state it asks for and, for text in a standard font, its text -/
abbrev Shown := PState × Option Str

/-- the parts of a line that have text -/
def lineShown (l : TLine) : List Shown :=
  (l.parts.filter fun p => p.words.flatten ≠ []).map fun p => (p.look.st, if p.look.enc = none then some p.words.flatten else none)

/-- what a run has to show: the text of the list (if the run begins the paragraph), and its lines -/
def runShown (cfg : TCfg) (enc : Option (Str × Str)) (first : Bool) (ls : List (TLine × Bool)) : List Shown :=
  (match cfg.list, ls with
    | some lc, _ :: _ => if first then [(lc.state, if enc = none then some lc.text else none)] else []
    | _, _ => []) ++ ls.flatMap fun l => lineShown l.1

/-- an event shows something in its own font, size, fill colour and rise -/
def ShownAs (F : TFmt) (s : Shown) (e : Event) : Prop :=
  ∃ gs tm mv str, e = .text gs tm mv str ∧ gs.font = (bytesOf s.1.ref, F.b s.1.size) ∧ gs.fill = F.comps s.1.color ∧
    gs.rise = F.b s.1.rise ∧ ∀ t, s.2 = some t → (∀ c ∈ t, isLatin c = true) ∧ str = eol (bytesOf t)

/-- the text of a list in a standard font can be shown, see C10 -/
def ListTextOk (cfg : TCfg) (enc : Option (Str × Str)) : Prop :=
  ∀ lc, cfg.list = some lc → enc = none → balanced 0 (bytesOf lc.text) = true ∧ ∀ c ∈ lc.text, c ≠ '\\' ∧ c ≠ '\r' ∧ isLatin c = true

/-- the styles of a paragraph can be written, and its fonts are called `refOf family mode` -/
structure StylesOk (F : TFmt) (refOf : Str → Str → Str) (cfg : TCfg) : Prop where
  looks : ∀ x ∈ contentLooks cfg.content, x.st.Ok refOf
  list : ∀ lc, cfg.list = some lc → lc.state.Ok refOf
  raw : ∀ lc, cfg.list = some lc → ∀ x, NumText (F.raw x)

theorem StylesOk.cfgOk {F : TFmt} {refOf : Str → Str → Str} {cfg : TCfg} (h : StylesOk F refOf cfg) {enc : Option (Str × Str)}
    (hl : ListTextOk cfg enc) : CfgOk F refOf cfg enc :=
  ⟨fun lc hlc => ⟨h.list lc hlc, fun he _ => ⟨(hl lc hlc he).1, fun hc => ((hl lc hlc he).2 _ hc).1 rfl, fun hc => ((hl lc hlc he).2 _ hc).2.1 rfl⟩⟩,
    h.raw⟩

theorem forall2_map_left {α β γ : Type} {R : β → γ → Prop} {f : α → β} : ∀ {l : List α} {m : List γ},
    List.Forall₂ (fun a c => R (f a) c) l m → List.Forall₂ R (l.map f) m := by
  intro l m h
  induction h with
  | nil => exact .nil
  | cons h _ ih => exact .cons h ih

/-- what an item shows -/
def ShItem.shown (enc : Option (Str × Str)) : ShItem → Shown
  | .bullet lc _ => (lc.state, if enc = none then some lc.text else none)
  | .part p _ _ => (p.look.st, if p.look.enc = none then some p.words.flatten else none)

theorem runItems_shown (F : TFmt) (cfg : TCfg) (enc : Option (Str × Str)) (width : Rat) : ∀ (ls : List (TLine × Bool)) (g : Geo)
    (mv : List (Bytes × Bytes)), g.started = true → (runItems F cfg width ls g mv).map (ShItem.shown enc) = ls.flatMap fun l => lineShown l.1 := by
  intro ls
  induction ls with
  | nil => intros; rfl
  | cons l ls ih =>
    intro g mv hg
    have ha : g.atStart = false := by simp [Geo.atStart, hg]
    rw [runItems, List.map_append, ih _ _ (by simp [Geo.next]), List.flatMap_cons]
    congr 1
    unfold lineItems lineShown
    cases cfg.list <;> simp [ha, ShItem.shown, Function.comp_def]

theorem runItems_first (F : TFmt) (cfg : TCfg) (enc : Option (Str × Str)) (width : Rat) (ls : List (TLine × Bool)) (first correct : Bool)
    (mv : List (Bytes × Bytes)) :
    (runItems F cfg width ls ⟨false, 0, first, correct⟩ mv).map (ShItem.shown enc) = runShown cfg enc first ls := by
  cases ls with
  | nil => unfold runShown; cases cfg.list <;> rfl
  | cons l ls =>
    rw [runItems, List.map_append, runItems_shown _ _ _ _ _ _ _ (by simp [Geo.next])]
    unfold lineItems runShown lineShown
    cases cfg.list <;> cases first <;> simp [Geo.atStart, ShItem.shown, Function.comp_def]

theorem itemEvent_shown {F : TFmt} {E : Encs} {enc : Option (Str × Str)} {M : Metrics} {tm : List Bytes} {g0 : GS} {i : ShItem} {e : Event}
    (h : ItemEvent F E enc M tm g0 i e)
    (hb : ∀ lc mv, i = .bullet lc mv → enc = none → ∀ c ∈ lc.text, c ≠ '\r' ∧ isLatin c = true) :
    ShownAs F (i.shown enc) e := by
  cases i with
  | bullet lc mv =>
    obtain ⟨gs, s, he, hg, _, hs, -⟩ := h
    refine ⟨gs, tm, mv, s, he, by rw [hg]; rfl, by rw [hg]; rfl, by rw [hg]; rfl, ?_⟩
    intro t ht
    simp only [ShItem.shown] at ht
    by_cases hn : enc = none
    · rw [if_pos hn] at ht
      cases ht
      subst hn
      have hb' := hb lc mv rfl rfl
      refine ⟨fun c hc => (hb' c hc).2, ?_⟩
      simp only [BulletStr] at hs
      rw [hs, eol_id]
      exact notMem_bytesOf (fun c hc => (hb' c hc).2) (c := '\r') (by decide) (fun hc => (hb' _ hc).1 rfl)
    · rw [if_neg hn] at ht; cases ht
  | part p factor mv =>
    obtain ⟨gs, b, he, hg, _, hs, hlat, -⟩ := h
    refine ⟨gs, tm, mv, _, he, by rw [hg]; rfl, by rw [hg]; rfl, by rw [hg]; rfl, ?_⟩
    intro t ht
    simp only [ShItem.shown] at ht
    by_cases hn : p.look.enc = none
    · rw [if_pos hn] at ht
      cases ht
      unfold PartShows at hs
      rw [hn] at hs
      exact ⟨hlat hn, by rw [hs]⟩
    · rw [if_neg hn] at ht; cases ht

theorem mem_runItems_bullet {F : TFmt} {cfg : TCfg} {width : Rat} {lc : ListCfg} {m : List (Bytes × Bytes)} :
    ∀ {ls : List (TLine × Bool)} {g : Geo} {mv : List (Bytes × Bytes)}, ShItem.bullet lc m ∈ runItems F cfg width ls g mv → cfg.list = some lc := by
  intro ls
  induction ls with
  | nil => intro g mv h; simp [runItems] at h
  | cons l ls ih =>
    intro g mv h
    rw [runItems, List.mem_append] at h
    rcases h with h | h
    · unfold lineItems at h
      cases hl : cfg.list with
      | none => rw [hl] at h; simp at h
      | some lc' =>
        rw [hl] at h
        simp only [List.mem_append] at h
        rcases h with h | h
        · split at h
          · simp at h; rw [h.1]
          · simp at h
        · simp at h
    · exact ih h

theorem forall2_mem {α β : Type} {R S : α → β → Prop} : ∀ {l : List α} {m : List β}, List.Forall₂ R l m →
    (∀ a ∈ l, ∀ b, R a b → S a b) → List.Forall₂ S l m := by
  intro l m h
  induction h with
  | nil => intro _; exact .nil
  | cons h _ ih => intro hh; exact .cons (hh _ (by simp) _ h) (ih fun a ha => hh a (by simp [ha]))

/-- C26: the stream of a run is read as operators; executed in a text object (whatever the graphics state was)
they show, one after the other, the text of the list and the text of the parts of the lines, each with its own
font, size, fill colour and rise. -/
theorem C26_own_state (F : TFmt) (hF : F.Ok) (E : Encs) (hE : E.Ok) (refOf : Str → Str → Str) (M : Metrics) (cfg : TCfg)
    (enc : Option (Str × Str)) (hs : StylesOk F refOf cfg) (hlt : ListTextOk cfg enc) (width height : Rat) (pos : TPos)
    (hr : TReach M cfg pos) (correct : Bool) (o : OutSt) (h : textOut F M E cfg enc width height pos correct = .ok o)
    (b : Bytes) (hb : encodeLatin o.text = .ok b) :
    ∃ ops, opsOf b = some ops ∧ ∀ m : MS, m.path = [] → (∃ t, m.text = some t) → ∃ m' evs, exec m ops = some (m', evs) ∧
      List.Forall₂ (ShownAs F) (runShown cfg enc pos.isFirstLine (textRun M cfg width height pos).lines) evs := by
  obtain ⟨hl, rfl⟩ := encodeLatin_inv hb
  obtain ⟨_, hp⟩ := hr.post
  have hu := textRun_used M cfg width height pos hp.lastV
  obtain ⟨ops, h1, _, h3⟩ := textOut_ops hF hE (hs.cfgOk hlt) (by
    intro l hl p hp
    exact hs.looks _ (hu.lk l hl _ (List.mem_map_of_mem hp)).1) h hl
  refine ⟨ops, h1.ops, ?_⟩
  intro m hm ⟨⟨tm, mv⟩, hmt⟩
  obtain ⟨gs, evs, e1, e2⟩ := h3 m tm mv hm hmt
  refine ⟨_, evs, e1, ?_⟩
  rw [← runItems_first F cfg enc width _ _ correct mv]
  refine forall2_map_left (forall2_mem e2 ?_)
  intro i hi e he
  refine itemEvent_shown he ?_
  intro lc mv' hi' hn c hc
  subst hi'
  have := (hlt lc (mem_runItems_bullet hi) hn).2 c hc
  exact ⟨this.2.1, this.2.2⟩

/-- C26: the font of everything shown by a run is one of its used fonts, if the run is the first one or there is
no list. -/
theorem C26_used_fonts_partial (M : Metrics) (cfg : TCfg) (enc : Option (Str × Str)) (width height : Rat) (pos : TPos)
    (hr : TReach M cfg pos) (hfirst : cfg.list = none ∨ pos.listDone = false) (F : TFmt) (E : Encs) (correct : Bool) (o : OutSt)
    (h : textOut F M E cfg enc width height pos correct = .ok o) :
    ∀ s ∈ runShown cfg enc pos.isFirstLine (textRun M cfg width height pos).lines,
      s.1.font ∈ (textRun M cfg width height pos).used := by
  obtain ⟨_, hp⟩ := hr.post
  have hu := textRun_used M cfg width height pos hp.lastV
  intro s hsm
  unfold runShown at hsm
  rw [List.mem_append] at hsm
  rcases hsm with hsm | hsm
  · cases hlist : cfg.list with
    | none => rw [hlist] at hsm; simp at hsm
    | some lc =>
      have hd : pos.listDone = false := by
        rcases hfirst with h | h
        · rw [hlist] at h; cases h
        · exact h
      rw [hlist] at hsm
      unfold textOut at h
      cases hls : (textRun M cfg width height pos).lines with
      | nil => rw [hls] at hsm; simp at hsm
      | cons l ls =>
        rw [hls] at hsm h
        cases hfl : pos.isFirstLine with
        | false => rw [hfl] at hsm; simp at hsm
        | true =>
          rw [hfl] at hsm h
          simp only [if_true, List.mem_singleton] at hsm
          subst hsm
          refine hu.bul hd lc hlist l (by rw [hls]; simp) ?_
          intro hparts
          unfold streamLines addLineToStream lineStart at h
          rw [hlist] at h
          simp [Geo.atStart, outInit, bulletText, hparts] at h
  · obtain ⟨l, hl, hsl⟩ := List.mem_flatMap.1 hsm
    unfold lineShown at hsl
    obtain ⟨p, hp', rfl⟩ := List.mem_map.1 hsl
    exact (hu.lk l hl p.look (List.mem_map_of_mem (List.mem_filter.1 hp').1)).2

/-- a list paragraph whose text is in another font -/
def exBullet : TCfg := ⟨[.text [c!"aa", c!" ", c!"bb"] (samplePart [] none).look none], 0, c!"l", 1,
  some ⟨c!"1.", 2, { sampleSt with family := c!"Symbol", ref := c!"F2" }⟩⟩

/-- **C26 is false for lists whose first line does not fit the first rectangle**: the second run shows the text of
the list in a font it does not report. -/
theorem C26_list_font_false :
    ∃ pos o, (textRun sampleM exBullet 200 5 TPos.init).pos = pos ∧ pos.finished = false ∧
      textOut sampleTFmt sampleM (fun _ _ => none) exBullet none 200 100 pos true = .ok o ∧
      (textRun sampleM exBullet 200 100 pos).used = [(c!"Helvetica", c!"n")] ∧
      o.text = c!" 0 -11 Td /F2 10 Tf 1 g 0 Ts (1.)Tj 2 0 Td /F1 10 Tf 1 g 0 Ts 0 Tw (aa )Tj (bb)Tj" := by
  refine ⟨_, _, rfl, by decide +kernel, (by decide +kernel : _ = Except.ok (OutSt.mk ⟨true, 0, false, true⟩ ⟨some sampleSt, some 0⟩ ⟨none, none, none⟩ (-11)
    c!" 0 -11 Td /F2 10 Tf 1 g 0 Ts (1.)Tj 2 0 Td /F1 10 Tf 1 g 0 Ts 0 Tw (aa )Tj (bb)Tj" [] [])), by decide +kernel, rfl⟩

example : (runShown exBullet none true (textRun sampleM exBullet 200 100 TPos.init).lines).map (fun s => s.1.ref) = [c!"F2", c!"F1", c!"F1"] := by
  decide +kernel

end Verif
