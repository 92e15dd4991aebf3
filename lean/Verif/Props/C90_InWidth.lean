import Verif.Props.C89_FileLinks
/-!
# C90: text is between the left and right end of what it is given -/
namespace Verif
open Spec

/-- **C90 (a paragraph).** A run of a paragraph in a given width, executed: with the lines beginning where they are shown and the word spacings that are set, no word of a
line goes beyond the ends of the width, unless the line is a single word. Up to the rounding of numbers. Exceptions, as the code does them: blanks at the end of a right aligned
or centred line count, and the last line of a justified paragraph. Partial: see DESIGN.md. -/
theorem C90_words_partial (F : TFmt) (hF : F.Ok) (ε : Rat) (hd : F.Signed ε) (E : Encs) (hE : E.Ok) (refOf : Str → Str → Str)
    (M : Metrics) (hM : ∀ f m c, 0 ≤ M f m c) (cfg : TCfg) (enc : Option (Str × Str)) (hs : StylesOk F refOf cfg) (hlist : cfg.list = none)
    (hmv : cfg.align = c!"r" ∨ cfg.align = c!"c" → cfg.indent = 0) (hind : 0 ≤ cfg.indent) (hlh : 0 ≤ cfg.lineHeight)
    (hlk : ∀ x ∈ contentLooks cfg.content, x.Ok ∧ (cfg.align = c!"j" → x.enc = none))
    (hw : ∀ w ∈ contentWords cfg.content, w = c!" " ∨ ' ' ∉ w)
    (width height : Rat) (pos : TPos) (hr : TReach M cfg pos) (correct : Bool)
    (hcor : cfg.indent = 0 ∨ correct = pos.isFirstLine) (o : OutSt)
    (h : textOut F M E cfg enc width height pos correct = .ok o) (px py : Rat) (b : Bytes)
    (hb : encodeLatin (paragraphStream F.toNumFmt px py o.text o.graphics) = .ok b) :
    ∃ (X Y : Nat → Rat) (tw : Nat → TPart → Rat),
      (∀ m : MS, m.path = [] → m.text = none → ∃ gs drawn shown, execStream m b = some (⟨gs, m.stack, [], none⟩, drawn ++ shown) ∧
        (∀ gs tm mv s, Event.text gs tm mv s ∉ drawn) ∧
        List.Forall₂ (ShownAt (placeAt F px py) m.gs.cms X Y tw) (placedFrom cfg pos.isFirstLine 0 (textRun M cfg width height pos).lines) shown) ∧
      WordsWithin M cfg.align (wordErr ε) 0 width X tw (textRun M cfg width height pos).lines := by
  have hε : 0 ≤ ε := le_trans (abs_nonneg _) (hd.err 0)
  obtain ⟨X, Y, tw, marks, -, h2, -, -, h5⟩ := run_marks F hF ε hd E hE refOf M cfg enc hs (by intro lc hc; rw [hlist] at hc; cases hc) hmv (fun hc => absurd hlist hc) hlh
    hlk hw width height pos hr correct hcor o h px py b hb
  refine ⟨X, Y, tw, fun m m1 m2 => ?_, (run_within hM hlist ?_ hind (fun x hx => (hlk x hx).2) hw hr hε h5).1⟩
  · obtain ⟨gs, drawn, shown, k1, k2, k3⟩ := h2 m m1 m2
    refine ⟨gs, drawn, shown, k1, fun gs tm mv s he => ?_, k3⟩
    exact deco_no_text k2 gs tm mv s he
  · intro hc
    apply hmv
    simpa [TCfg.moved] using hc

/-- the text of a piece is between the left and right end of an area: every word of a line with more than one word, where its line begins and with the word spacing that is
set. `px` is where the paragraph begins -/
def Spec.TextWithin (F : TFmt) (M : Metrics) (ε : Rat) (R : Area) (r : Painted) : Prop :=
  match r.mark with
  | none => ∀ gs tm mv s, Event.text gs tm mv s ∉ r.evs
  | some m => ∃ (cfg : TCfg) (X Y : Nat → Rat) (tw : Nat → TPart → Rat) (drawn shown : List Event) (px : Rat), cfg.list = none ∧ (∀ l ∈ m.lines, l.1.align = cfg.align) ∧
      r.evs = drawn ++ shown ∧ (∀ gs tm mv s, Event.text gs tm mv s ∉ drawn) ∧
      List.Forall₂ (ShownAt (placeAt F m.x m.y) [] X Y tw) (placedFrom cfg false 0 m.lines) shown ∧
      (∀ font, eventGlyphs font r.evs = m.lines.flatMap (lineGlyphs F font)) ∧ numVal (F.b m.x) = some px ∧
      (shown ≠ [] → WordsWithin M cfg.align (fun j l => wordErr ε j l + ε) (R.left - px) (R.right - px) X tw m.lines)

/-- the text of the section is between the margins, and that of running sections that have a place in it -/
def Spec.PageWithin (F : TFmt) (M : Metrics) (ε : Rat) (p : BookPage) (g : PageGroup) : Prop :=
  (∀ r ∈ g.2, TextWithin F M ε (sheetArea p.plan.sheet) r) ∧
  List.Forall₂ (fun b rs => ∀ x y w h, b.x = some x → b.y = some y → b.width = some w → b.height = some h →
    ∀ r ∈ rs, TextWithin F M ε ⟨x, x + w, p.plan.sheet.h - y, p.plan.sheet.h - y - h⟩ r) p.plan.boxes g.1

section
variable {T : TextEnv} {refOf : Str → Str → Str} {fuel : Nat} {ε : Rat}

theorem piece_within (hε : T.fmt.Signed ε) (hM : ∀ f m c, 0 ≤ T.metrics f m c) {s : PdfD} {R : Area} {a : Option DocPart} {r : Painted} (h : PieceShows T s a r)
    (ha : ∀ p, a = some p → PartPlain p ∧ (p.area.Seen → p.area.Within R)) : TextWithin T.fmt T.metrics ε R r := by
  have none_case : r.mark = none → (∀ gs tm mv s, Event.text gs tm mv s ∉ r.evs) → TextWithin T.fmt T.metrics ε R r := by
    intro h1 h2
    unfold TextWithin
    rw [h1]
    exact h2
  cases a with
  | none => exact none_case h.1 fun gs tm mv s he => h.2 _ he
  | some p =>
    obtain ⟨hp, hin⟩ := ha p rfl
    cases p with
    | par x y w ht text graphics used ids cfg lines =>
      obtain ⟨h1, h2, -, -, hat, h3⟩ := h
      obtain ⟨k1, k2, k3⟩ := hp
      obtain ⟨X, Y, tw, marks, gs0, drawn, shown, m1, m2, m3, m4, m5, m6, m7, m8⟩ := h2 ε hε k1.le k2.1 k2.2
      obtain ⟨w1, w2⟩ := m8 hM
      unfold TextWithin
      rw [h1]
      refine ⟨cfg, X, Y, tw, drawn, shown, _, k3, w2, m2, deco_no_text m4, m5, h3, hε.val x, fun hne => ?_⟩
      have hs : (DocPart.area (.par x y w ht text graphics used ids cfg lines)).Seen := by
        obtain ⟨e, es, rfl⟩ := List.exists_cons_of_ne_nil hne
        obtain ⟨q, -, hq⟩ := forall₂_right m5 e List.mem_cons_self
        obtain ⟨gs, mv, str, rfl, -⟩ := hq
        obtain ⟨-, hat⟩ := hat ε hε k1.le
        obtain ⟨x', y', -, -, -, -, h4⟩ := hat gs (placeAt T.fmt x y) mv str (by rw [m2]; exact List.mem_append.2 (.inr List.mem_cons_self))
        have h4 := h4 k1
        show y - ht < y
        linarith
      obtain ⟨i1, i2, -, -⟩ := hin hs
      have i1 : R.left ≤ x := i1
      have i2 : x + w ≤ R.right := i2
      have e1 := abs_le.1 (hε.err x)
      intro j l hl hsz
      refine (w1 j l hl hsz).imp id fun hq q hqm hseen => ?_
      obtain ⟨b1, b2⟩ := hq q hqm hseen
      constructor <;> linarith
    | image im x y w ht =>
      obtain ⟨h0, gs, n, id, pg, h1, -⟩ := h
      refine none_case h0 fun gs tm mv s he => ?_
      rw [h1] at he
      cases List.mem_singleton.1 he

theorem flow_within (hε : T.fmt.Signed ε) (hM : ∀ f m c, 0 ≤ T.metrics f m c) {s : PdfD} {b : DocBox} {Ws : List Rat} (hb : BoxFit (plainNest T refOf b.depth) b.els Ws)
    (hin : BoxIn (nestIn b.depth) b.gap b.els Ws)
    {c : CContent (DocNest b.depth) (TagPart DocPart) LineLook (PDFColor Rat)} (hc : BoxState T fuel b Ws c) {x y w h : Rat} (hw : w ∈ Ws)
    {o : FlowOut (CContent (DocNest b.depth) (TagPart DocPart) LineLook (PDFColor Rat))} (ho : contentFlow T fuel b c x y w h = .ok o) {rs : List Painted}
    (hrs : List.Forall₂ (PieceShows T s) o.marks rs) : ∀ r ∈ rs, TextWithin T.fmt T.metrics ε ⟨x, x + w, y, y - h⟩ r := by
  intro r hr
  obtain ⟨a, ha, hra⟩ := forall₂_right hrs r hr
  refine piece_within hε hM hra fun p hp => ?_
  subst hp
  have hp : p ∈ o.parts := by simpa [FlowOut.marks] using ha
  exact ⟨content_plain hb hc hw ho p hp, (content_parts_in ((plain_stronger _).box hb) hin hc hw ho p hp).2⟩

end

/-- **C90 (a document).** A document built from sections with paragraphs without indents (as in C89), whose boxes and tables are as in C87: in its file, every word of a line
with more than one word is between the left and right margin of its page, and in the running sections between the ends of their place. Partial: see DESIGN.md. -/
theorem C90_margins_partial {E : PdfEnv} {T : TextEnv} (hT : T.Ok) (hM : ∀ f m c, 0 ≤ T.metrics f m c) {refOf : Str → Str → Str} {B : Book} {fuel : Nat} {version : Str}
    {setup : PageSetup} {offset : Int} {roman : Bool} {l : List BookSec} {p : FProc} {s : BookSt} (h : madeBook E T fuel B version setup offset roman l p = .ok s) {Ws : List Rat}
    (hW : ∀ pl ∈ s.plans, pl.plan.sheet.w - pl.plan.sheet.right - pl.plan.sheet.left ∈ Ws) (hl : ∀ d ∈ l, BoxFit (plainNest T refOf d.box.depth) d.box.els Ws)
    (hr : ∀ pl ∈ s.plans, ∀ b ∈ pl.plan.boxes, RunPlain T refOf (fun n => B.shows n pl.plan.number) b) (him : ImagesOk (bookOps B l s.plans))
    {ε : Rat} (hε : T.fmt.Signed ε) (hin : ∀ d ∈ l, BoxIn (nestIn d.box.depth) d.box.gap d.box.els Ws)
    (hrin : ∀ pl ∈ s.plans, ∀ b ∈ pl.plan.boxes, ∀ w, b.width = some w →
      BoxIn (nestIn (B.shows b.name pl.plan.number).depth) (B.shows b.name pl.plan.number).gap (B.shows b.name pl.plan.number).els [w])
    {level : Int} {b : Base} (hb : s.pdf.doc.withTrees E.num level = .ok b) (hread : ∀ o ∈ b.content, readable o.value = true)
    (flate : Bytes → Bytes) (u1 u2 : Bytes) (hok : (b.output flate u1 u2).err = none) (hsmall : (b.output flate u1 u2).written.length < 10 ^ 10)
    (hu1 : 60 ∉ u1 ∧ 62 ∉ u1) (hu2 : 60 ∉ u2 ∧ 62 ∉ u2) :
    ∃ R ids dicts pages shown, openFile (b.output flate u1 u2).written = some R ∧ BookRead R flate E.num B l s.plans ids dicts pages shown ∧
      List.Forall₂ (fun (d : BookSec) gs => BoxWords d.box true (gs.flatMap Prod.snd)) l shown ∧
      List.Forall₂ (PageWithin T.fmt T.metrics ε) s.plans shown.flatten := by
  have hl' : ∀ d ∈ l, BoxFit (docNest T refOf d.box.depth) d.box.els Ws := fun d hd => (plain_stronger _).box (hl d hd)
  have hr' : ∀ pl ∈ s.plans, ∀ b ∈ pl.plan.boxes, RunFits T refOf (fun n => B.shows n pl.plan.number) b := by
    intro pl hpl b hb
    obtain ⟨w, e, hbox⟩ := hr pl hpl b hb
    exact ⟨w, e, (plain_stronger _).box hbox⟩
  obtain ⟨R, ids, dicts, pages, shown, h1, h2, h3, h4, -, h6⟩ := book_read hT h hW hl' hr' him hb hread flate u1 u2 hok hsmall hu1 hu2
  refine ⟨R, ids, dicts, pages, shown, h1, h2, forall₂_left h6 fun d hd gs hgs => section_words (hl' d hd) hgs.2, ?_⟩
  clear h6
  have h5 : List.Forall₂ (fun (p : BookPage) (g : PageGroup) => ∀ r ∈ g.2, TextWithin T.fmt T.metrics ε (sheetArea p.plan.sheet) r) s.plans shown.flatten := by
    refine forall₂_left h4 ?_
    rintro pl hpl g ⟨d, hd, c, o, hc, ho, hrs, -⟩ r hr
    have := flow_within hε hM (hl d hd) (hin d hd) hc (hW pl hpl) ho hrs r hr
    have e1 : pl.plan.sheet.left + (pl.plan.sheet.w - pl.plan.sheet.right - pl.plan.sheet.left) = pl.plan.sheet.w - pl.plan.sheet.right := by ring
    have e2 : pl.plan.sheet.h - pl.plan.sheet.top - (pl.plan.sheet.h - pl.plan.sheet.top - pl.plan.sheet.bottom) = pl.plan.sheet.bottom := by ring
    rw [e1, e2] at this
    exact this
  have h6 : List.Forall₂ (fun (p : BookPage) (g : PageGroup) => List.Forall₂ (fun b rs => ∀ x y w h, b.x = some x → b.y = some y → b.width = some w → b.height = some h →
      ∀ r ∈ rs, TextWithin T.fmt T.metrics ε ⟨x, x + w, p.plan.sheet.h - y, p.plan.sheet.h - y - h⟩ r) p.plan.boxes g.1) s.plans shown.flatten := by
    clear h4 h5 h1 h2
    generalize shown.flatten = gs at h3
    clear hW him hread hb hok hsmall hr' hl'
    generalize s.plans = plans at *
    induction h3 with
    | nil => exact .nil
    | @cons p plans g gs hd _ ih =>
      refine .cons ?_ (ih (fun pl hpl => hr pl (List.mem_cons_of_mem _ hpl)) fun pl hpl => hrin pl (List.mem_cons_of_mem _ hpl))
      have a1 := hr p List.mem_cons_self
      have a2 := hrin p List.mem_cons_self
      clear ih hr hrin
      generalize p.plan.boxes = boxes at *
      generalize p.fits = fits at *
      generalize g.1 = rss at *
      induction hd with
      | nil => exact .nil
      | @cons b boxes fin fs rs rss hd _ ih =>
        refine .cons ?_ (ih (fun b hb => a1 b (List.mem_cons_of_mem _ hb)) fun b hb => a2 b (List.mem_cons_of_mem _ hb))
        obtain ⟨rect, o, ⟨e1, e2⟩, e3, e4, -⟩ := hd
        obtain ⟨w0, k1, k2⟩ := a1 b List.mem_cons_self
        intro x y w h f1 f2 f3 f4
        have k3 := a2 b List.mem_cons_self w f3
        obtain ⟨rx, ry, rw', rh⟩ := rect
        have g1 := e2.x x f1
        have g2 := e2.y y f2
        have g3 := e2.h h f4
        rw [f3] at k1 e1
        cases k1
        cases e1
        simp only at g1 g2 g3 e3
        subst g1 g2 g3
        exact flow_within hε hM k2 k3 ⟨rfl, [], [], by simp, rfl⟩ List.mem_cons_self e3 e4
  clear h3 h4 hrin hr
  generalize shown.flatten = gs at *
  rw [List.forall₂_iff_get] at h5 h6 ⊢
  exact ⟨h5.1, fun i hi1 hi2 => ⟨h5.2 i hi1 hi2, h6.2 i hi1 hi2⟩⟩

/-! ### Examples and counterexamples (10 point text, every character is as wide as it is high) -/

/-- a paragraph -/
def ex90Par (text align : Str) : TCfg := ⟨[.text (splitWords text) (samplePart [] none).look none], 0, align, 1, none⟩

/-- the strings that a run shows, where their lines begin and the word spacing -/
def ex90Shown (cfg : TCfg) (width : Rat) : Option (List (Bytes × Option Rat × Option Rat)) :=
  match textOut sampleTFmt sampleM (fun _ _ => none) cfg none width 100 TPos.init true with
  | .error _ => none
  | .ok o => (execStream ⟨sampleGS, [], [], none⟩ (bytesOf (paragraphStream sampleFmt 100 700 o.text o.graphics))).map fun r =>
      r.2.filterMap fun
        | .text gs _ mv s => some (s, numSum (mv.map Prod.fst), numVal gs.wordSpace)
        | _ => none

/-- a justified line fills its width of 75: its blanks shrink from 10 to 7 (the numbers are rounded down) -/
example : ex90Shown (ex90Par c!"aa bb cc d ee" c!"j") 75 = some [(b!"aa bb cc", some 0, some (-3)), (b!"d ", some 0, some 0), (b!"ee", some 0, some 0)] := by decide +kernel

/-- right aligned and centred lines end and begin inside of 55 -/
example : ex90Shown (ex90Par c!"aa bb cc" c!"r") 55 = some [(b!"aa bb", some 5, some 0), (b!"cc", some 35, some 0)] ∧
    ex90Shown (ex90Par c!"aa bb cc" c!"c") 55 = some [(b!"aa bb", some 2, some 0), (b!"cc", some 17, some 0)] := by decide +kernel

/-- **C90 is false for the last line of a justified paragraph**: it is accepted as its blanks could be narrow (60 and 2 times 7 are less than 75), but it is shown with
blanks of 10, and so it is 80 wide, 5 more than there is. The two strings are on the same line. -/
theorem C90_last_justified_false : ex90Shown (ex90Par c!"aa bb cc" c!"j") 75 = some [(b!"aa bb ", some 0, some 0), (b!"cc", some 0, some 0)] ∧
    ((textRun sampleM (ex90Par c!"aa bb cc" c!"j") 75 100 TPos.init).lines.map fun l => ((lineWords l.1).map (wordNatural sampleM)).sum) = [80] := by decide +kernel

/-- ... and for the line before, if the last word does not fit: it is not stretched or shrunk either -/
theorem C90_before_last_false : ex90Shown (ex90Par c!"aa bb cc dd" c!"j") 75 = some [(b!"aa bb cc", some 0, some 0), (b!"dd", some 0, some 0)] ∧
    ((textRun sampleM (ex90Par c!"aa bb cc dd" c!"j") 75 100 TPos.init).lines.map fun l => ((lineWords l.1).map (wordNatural sampleM)).sum) = [80, 20] := by decide +kernel

/-- **C90 is false for a right aligned paragraph that ends with a blank**: the blank is put inside of the width, and the first word begins 5 left of it -/
theorem C90_right_blank_false : ex90Shown (ex90Par c!"aa bb " c!"r") 55 = some [(b!"aa bb ", some (-5), some 0)] := by decide +kernel

/-- a single word can be wider -/
example : ex90Shown (ex90Par c!"aaaaaaaa bb" c!"l") 55 = some [(b!"aaaaaaaa", some 0, some 0), (b!"bb", some 0, some 0)] := by decide +kernel

/-- the theorem applies to the first example -/
example (o : OutSt) (h : textOut sampleTFmt sampleM (fun _ _ => none) (ex90Par c!"aa bb cc d ee" c!"j") none 75 100 TPos.init true = .ok o)
    (b : Bytes) (hb : encodeLatin (paragraphStream sampleTFmt.toNumFmt 100 700 o.text o.graphics) = .ok b) :=
  C90_words_partial sampleTFmt sampleTFmt_ok 1 sampleTFmt_signed (fun _ _ => none) (by intro f m map c g h; cases h) sampleRef sampleM (fun _ _ _ => zero_le_one) _ none
    ⟨by
      have : sampleSt.Ok sampleRef := ⟨⟨[1], rfl, Or.inl rfl⟩, rfl, rfl, by unfold NameOk; decide⟩
      intro x hx
      simp only [ex90Par, contentLooks, List.filterMap_cons, List.filterMap_nil, List.mem_cons, List.not_mem_nil, or_false] at hx
      subst hx
      exact this, (by intro lc h; cases h), (by intro lc h; cases h)⟩
    rfl (by intro h; rfl) le_rfl (by show (0 : Rat) ≤ 1; norm_num)
    (by
      intro x hx
      simp only [ex90Par, contentLooks, List.filterMap_cons, List.filterMap_nil, List.mem_cons, List.not_mem_nil, or_false] at hx
      subst hx
      exact ⟨⟨fun h => by simp [samplePart] at h, fun h => by simp [samplePart] at h⟩, fun _ => rfl⟩)
    (by
      intro w hw
      simp only [ex90Par, contentWords, List.flatMap_cons, List.flatMap_nil, List.append_nil] at hw
      exact splitWords_blank _ w hw)
    75 100 TPos.init ⟨[], rfl, rfl⟩ true (.inl rfl) o h 100 700 b hb

/-- the boxes of the document of C89 are as they should be, wherever they are put -/
example : (∀ d ∈ ex89Secs, BoxIn (nestIn d.box.depth) d.box.gap d.box.els [90]) ∧ ∀ name number, ∀ w : Rat, 0 ≤ w →
    BoxIn (nestIn (ex89Book.shows name number).depth) (ex89Book.shows name number).gap (ex89Book.shows name number).els [w] := by
  have tidy : StyleTidy ex80CSt := ⟨by norm_num [ex80CSt], by norm_num [ex80CSt], by norm_num [ex80CSt], by norm_num [ex80CSt]⟩
  have box : ∀ (t : Nat) (a : TextArgs) (w : Rat), 0 ≤ w → BoxIn (nestIn (ex89Box t a).depth) (ex89Box t a).gap (ex89Box t a).els [w] := by
    intro t a w hw
    refine ⟨(by intro g hg; cases hg), w, hw, (by intro W hW; rw [List.mem_singleton.1 hW]), ?_⟩
    intro e he
    have he : e = .leaf (ex80Leaf 0 t (.par a [] true)) ex80CSt := List.mem_singleton.1 he
    subst he
    exact ⟨tidy, fun _ _ => trivial⟩
  constructor
  · intro d hd
    simp only [ex89Secs, List.mem_cons, List.not_mem_nil, or_false] at hd
    rcases hd with rfl | rfl <;> exact box _ _ _ (by norm_num)
  · intro name number w hw
    exact box _ _ _ hw

end Verif
