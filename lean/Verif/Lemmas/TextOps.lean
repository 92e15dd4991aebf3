import Verif.Lemmas.Literal
import Verif.Props.C18_Graphics
/-! What the text stream of a paragraph does to the imaging machine. -/
namespace Verif
open Spec

/-- numbers are written as numbers, and numbers that round alike are written alike -/
def TFmt.Ok (F : TFmt) : Prop := F.toNumFmt.Ok ∧ ∀ x y, F.rnd x = F.rnd y → F.fmt x = F.fmt y

/-- the text of a resource name -/
def NameOk (r : Str) : Prop := ∀ c ∈ r, isRegular (latin1 c) = true ∧ latin1 c ≠ 35

/-- a state whose colour can be written and whose font is called `refOf family mode` -/
def PState.Ok (refOf : Str → Str → Str) (s : PState) : Prop :=
  Writable s.color ∧ s.color.stroke = false ∧ s.ref = refOf s.family s.mode ∧ NameOk s.ref

/-- the graphics state a text state asks for -/
def PState.gs (F : TFmt) (s : PState) (g : GS) : GS :=
  { g with font := (bytesOf s.ref, F.b s.size), fill := F.comps s.color, rise := F.b s.rise }

/-- the operand of `Tw` -/
def TFmt.tw (F : TFmt) (v : Rat) : Str := if F.rnd v = 0 then c!"0" else F.fmt v

theorem TFmt.tw_num {F : TFmt} (hF : F.Ok) (v : Rat) : NumText (F.tw v) := by
  unfold TFmt.tw
  split
  · unfold NumText; decide
  · exact hF.1.1 v

theorem TFmt.tw_eq {F : TFmt} (hF : F.Ok) {v w : Rat} (h : F.rnd v = F.rnd w) : F.tw v = F.tw w := by
  unfold TFmt.tw
  rw [h]
  split
  · rfl
  · exact hF.2 v w h

/-- what is remembered agrees with the machine -/
structure TxInv (F : TFmt) (refOf : Str → Str → Str) (last : TLast) (m : MS) : Prop where
  path : m.path = []
  text : ∃ tm mv, m.text = some (tm, mv)
  state : ∀ o, last.state = some o → o.Ok refOf ∧ m.gs = o.gs F m.gs
  factor : ∀ t, last.factor = some t → ∃ v, F.rnd v = t ∧ m.gs.wordSpace = bytesOf (F.tw v)

theorem opsTo_Tf {r n : Str} (hr : NameOk r) (hn : NumText n) :
    OpsTo (c!" /" ++ r ++ c!" " ++ n ++ c!" Tf") [⟨[.name (bytesOf r), .num (bytesOf n)], b!"Tf"⟩] := by
  apply OpsTo.op (w := b!"Tf") (by decide)
  · intro a ha
    simp only [List.mem_cons, List.not_mem_nil, or_false] at ha
    rcases ha with rfl | rfl
    · trivial
    · exact hn.isNumber
  · have e : c!" /" ++ r ++ c!" " ++ n ++ c!" Tf" = ' ' :: (('/' :: r) ++ ' ' :: (n ++ ' ' :: c!"Tf")) := by simp
    rw [e]
    refine lexTo_space (lexTo_append_space (t := [.name (bytesOf r)]) ?_ (lexTo_append_space hn.lexTo (lexTo_word c!"Tf" (by decide))))
    refine LexTo.name (w := bytesOf r) ?_ ?_
    · intro c hc
      obtain ⟨d, hd, rfl⟩ := List.mem_map.1 hc
      exact (hr d hd).1
    · intro hc
      obtain ⟨d, hd, he⟩ := List.mem_map.1 hc
      exact (hr d hd).2 he

theorem compare_ops {F : TFmt} (hF : F.Ok) {refOf : Str → Str → Str} {s : PState} (hs : s.Ok refOf) (other : Option PState) :
    ∃ t ops, s.compare F other = .ok t ∧ OpsTo t ops ∧ Sep (bytesOf t) ∧
      ∀ m : MS, m.path = [] → (∀ o, other = some o → o.Ok refOf ∧ m.gs = o.gs F m.gs) →
        exec m ops = some ({ m with gs := s.gs F m.gs }, []) := by
  obtain ⟨hw, hst, href, hname⟩ := hs
  -- the font
  obtain ⟨tf, fops, htf, hf1, hf2, hf3⟩ : ∃ tf fops, s.fontText F other = tf ∧ OpsTo tf fops ∧ Sep (bytesOf tf) ∧
      ∀ m : MS, m.path = [] → (∀ o, other = some o → o.Ok refOf ∧ m.gs = o.gs F m.gs) →
        exec m fops = some ({ m with gs := { m.gs with font := (bytesOf s.ref, F.b s.size) } }, []) := by
    by_cases h : ∃ o, other = some o ∧ s.family = o.family ∧ s.mode = o.mode ∧ s.size = o.size
    · obtain ⟨o, rfl, ho⟩ := h
      refine ⟨[], [], by simp only [PState.fontText, if_pos ho], OpsTo.nil, by simp [bytesOf], ?_⟩
      intro m _ hm
      obtain ⟨⟨_, _, hr, _⟩, hg⟩ := hm o rfl
      have h1 : m.gs.font = (bytesOf s.ref, F.b s.size) := by
        rw [hg]
        simp only [PState.gs]
        rw [hr, href, ho.1, ho.2.1, ho.2.2]
      simp only [exec, ← h1]
    · refine ⟨c!" /" ++ s.ref ++ c!" " ++ F.fmt s.size ++ c!" Tf", _, ?_, opsTo_Tf hname (hF.1.1 _), sep_space _, ?_⟩
      · cases other with
        | none => rfl
        | some o =>
          have : ¬ (s.family = o.family ∧ s.mode = o.mode ∧ s.size = o.size) := fun e => h ⟨o, rfl, e⟩
          simp only [PState.fontText, if_neg this]
      · intro m hp _
        exact exec_one (step_Tf hp)
  -- the colour
  obtain ⟨tc, cops, htc, hc1, hc2, hc3⟩ : ∃ tc cops, s.colorText F other = Except.ok tc ∧ OpsTo tc cops ∧ Sep (bytesOf tc) ∧
      ∀ m : MS, m.path = [] → (∀ o, other = some o → o.Ok refOf ∧ m.gs.fill = F.comps o.color) →
        exec m cops = some ({ m with gs := { m.gs with fill := F.comps s.color } }, []) := by
    obtain ⟨cs, o, h1, h2, h3⟩ := color_ops hF.1 hw
    rw [hst] at h3
    by_cases h : ∃ o, other = some o ∧ colorDiffers s.color (some o.color) = false
    · obtain ⟨o, rfl, ho⟩ := h
      refine ⟨[], [], by simp [PState.colorText, ho], OpsTo.nil, by simp [bytesOf], ?_⟩
      intro m _ hm
      obtain ⟨_, hg⟩ := hm o rfl
      simp only [colorDiffers, Bool.not_eq_false', Bool.and_eq_true, beq_iff_eq] at ho
      have : m.gs.fill = F.comps s.color := by rw [hg]; simp [NumFmt.comps, ho.1]
      simp only [exec, ← this]
    · refine ⟨' ' :: cs, [o], ?_, h2.space, sep_space _, ?_⟩
      · cases other with
        | none => simp [PState.colorText, h1, Except.map]
        | some o =>
          have : colorDiffers s.color (some o.color) = true := by
            cases hh : colorDiffers s.color (some o.color) with
            | true => rfl
            | false => exact absurd ⟨o, rfl, hh⟩ h
          simp [PState.colorText, h1, this, Except.map]
      · intro m hp _
        exact exec_one (h3 m hp)
  -- the rise
  obtain ⟨tr, rops, htr, hr1, hr2, hr3⟩ : ∃ tr rops, s.riseText F other = tr ∧ OpsTo tr rops ∧ Sep (bytesOf tr) ∧
      ∀ m : MS, m.path = [] → (∀ o, other = some o → m.gs.rise = F.b o.rise) →
        exec m rops = some ({ m with gs := { m.gs with rise := F.b s.rise } }, []) := by
    by_cases h : ∃ o, other = some o ∧ s.rise = o.rise
    · obtain ⟨o, rfl, ho⟩ := h
      refine ⟨[], [], by simp [PState.riseText, ho], OpsTo.nil, by simp [bytesOf], ?_⟩
      intro m _ hm
      have := hm o rfl
      rw [← ho] at this
      simp only [exec, ← this]
    · refine ⟨c!" " ++ F.fmt s.rise ++ c!" Ts", [⟨[.num (F.b s.rise)], b!"Ts"⟩], ?_, ?_, sep_space _, ?_⟩
      · cases other with
        | none => rfl
        | some o =>
          have : ¬ s.rise = o.rise := fun e => h ⟨o, rfl, e⟩
          simp only [PState.riseText, if_neg this]
      · exact (numsOp_ops (l := [F.fmt s.rise]) (w := c!"Ts") (by simp [hF.1.1]) (by decide) (by decide)).space
      · intro m hp _
        exact exec_one (step_Ts hp)
  refine ⟨tf ++ tc ++ tr, fops ++ cops ++ rops, ?_, (hf1.append hc1 hc2).append hr1 hr2, sep_append (sep_append hf2 hc2) hr2, ?_⟩
  · unfold PState.compare
    rw [htf, htc, htr]
  · intro m hp hm
    have e1 := hf3 m hp hm
    have e2 := hc3 { m with gs := { m.gs with font := (bytesOf s.ref, F.b s.size) } } hp (fun o ho => ⟨(hm o ho).1, by
      show m.gs.fill = _
      rw [(hm o ho).2]; rfl⟩)
    have e3 := hr3 { m with gs := { m.gs with font := (bytesOf s.ref, F.b s.size), fill := F.comps s.color } } hp (fun o ho => by
      show m.gs.rise = _
      rw [(hm o ho).2]; rfl)
    have := exec_append_of (exec_append_of e1 e2) e3
    exact this

/-- the bytes a part shows: its text in latin-1, or the glyphs of its (escaped) text -/
def PartShows (E : Encs) (p : TPart) (b : Bytes) : Prop := match p.look.enc with
  | none => b = bytesOf p.words.flatten
  | some mode => ∃ map gs, E p.look.st.family mode = some map ∧ (cleanWords p.words).mapM map = some gs ∧ b = gs.flatMap asPair

/-- glyph numbers have 16 bits -/
def Encs.Ok (E : Encs) : Prop := ∀ f m map c g, E f m = some map → map c = some g → g < 65536

theorem cleanWords_nil {ws : List Str} : cleanWords ws = [] ↔ ws.flatten = [] := by
  unfold cleanWords
  rw [escapeString_eq]
  cases ws.flatten with
  | nil => simp
  | cons c l =>
    simp only [List.flatMap_cons, List.append_eq_nil_iff, reduceCtorEq, iff_false, not_and]
    intro h
    unfold escChar at h
    split at h <;> simp at h

theorem mem_cleanWords {ws : List Str} {c : Char} (h : c ∈ ws.flatten) : c ∈ cleanWords ws := by
  unfold cleanWords
  rw [escapeString_eq]
  refine List.mem_flatMap.2 ⟨c, h, ?_⟩
  unfold escChar
  split <;> simp

/-- what `output_text` writes: the changes of the state, and the text -/
theorem outputText_ops {F : TFmt} (hF : F.Ok) {E : Encs} (hE : E.Ok) {refOf : Str → Str → Str} {M : Metrics} {p : TPart}
    (hs : p.look.st.Ok refOf) {factor : Rat} {last last' : TLast} {t : Str}
    (h : outputText F M E p (cleanWords p.words) factor last = .ok (last', t)) (hl : ∀ c ∈ t, isLatin c = true) :
    ∃ ops sh b, OpsTo t (ops ++ sh) ∧ Sep (bytesOf t) ∧
      (p.words.flatten = [] → sh = []) ∧
      (p.words.flatten ≠ [] → PartShows E p b ∧ (p.look.enc = none → ∀ c ∈ p.words.flatten, isLatin c = true) ∧
        sh = [⟨[.str (eol b)], b!"Tj"⟩]) ∧
      last' = ⟨some p.look.st, some (F.rnd (p.spaceWidth M * (factor - 1)))⟩ ∧
      ∀ m : MS, TxInv F refOf last m →
        let g := { p.look.st.gs F m.gs with wordSpace := bytesOf (F.tw (p.spaceWidth M * (factor - 1))) }
        exec m ops = some ({ m with gs := g }, []) ∧ TxInv F refOf last' { m with gs := g } := by
  obtain ⟨t1, ops1, h1, h2, h3, h4⟩ := compare_ops hF hs last.state
  unfold outputText at h
  rw [h1] at h
  simp only [] at h
  generalize hv : p.spaceWidth M * (factor - 1) = v at h ⊢
  obtain ⟨tw, wops, htw, hw1, hw2, hw3⟩ : ∃ tw wops, (if last.factor = some (F.rnd v) then [] else
      c!" " ++ (if F.rnd v = 0 then c!"0" else F.fmt v) ++ c!" Tw") = tw ∧ OpsTo tw wops ∧ Sep (bytesOf tw) ∧
      ∀ m : MS, m.path = [] → (∀ t, last.factor = some t → ∃ v, F.rnd v = t ∧ m.gs.wordSpace = bytesOf (F.tw v)) →
        exec m wops = some ({ m with gs := { m.gs with wordSpace := bytesOf (F.tw v) } }, []) := by
    by_cases hh : last.factor = some (F.rnd v)
    · refine ⟨[], [], if_pos hh, OpsTo.nil, by simp [bytesOf], ?_⟩
      intro m _ hm
      obtain ⟨w, hw, hg⟩ := hm _ hh
      rw [TFmt.tw_eq hF hw] at hg
      simp only [exec, ← hg]
    · refine ⟨c!" " ++ F.tw v ++ c!" Tw", [⟨[.num (bytesOf (F.tw v))], b!"Tw"⟩], if_neg hh, ?_, sep_space _, ?_⟩
      · exact (numsOp_ops (l := [F.tw v]) (w := c!"Tw") (by simpa using F.tw_num hF v) (by decide) (by decide)).space
      · intro m hp _
        exact exec_one (step_Tw hp)
  rw [htw] at h
  have hexec : ∀ m : MS, TxInv F refOf last m →
      exec m (ops1 ++ wops) = some ({ m with gs := { p.look.st.gs F m.gs with wordSpace := bytesOf (F.tw v) } }, []) ∧
      TxInv F refOf ⟨some p.look.st, some (F.rnd v)⟩ { m with gs := { p.look.st.gs F m.gs with wordSpace := bytesOf (F.tw v) } } := by
    intro m hm
    have e1 := h4 m hm.path hm.state
    have e2 := hw3 { m with gs := p.look.st.gs F m.gs } hm.path hm.factor
    refine ⟨exec_append_of e1 e2, hm.path, hm.text, ?_, ?_⟩
    · intro o ho
      cases ho
      exact ⟨hs, rfl⟩
    · intro t ht
      cases ht
      exact ⟨v, rfl, rfl⟩
  by_cases hempty : cleanWords p.words = []
  · rw [if_pos hempty] at h
    cases h
    rw [cleanWords_nil] at hempty
    refine ⟨ops1 ++ wops, [], [], by simpa using h2.append hw1 hw2, sep_append h3 hw2, fun _ => rfl, fun hne => absurd hempty hne, rfl, hexec⟩
  · rw [if_neg hempty] at h
    rw [cleanWords_nil] at hempty
    have fin : ∀ u b, bytesOf u = b.flatMap escByte → t = t1 ++ tw ++ c!" (" ++ u ++ c!")Tj" →
        OpsTo t (ops1 ++ wops ++ [⟨[.str (eol b)], b!"Tj"⟩]) ∧ Sep (bytesOf t) := by
      intro u b hu ht
      have e : t = (t1 ++ tw) ++ (c!" (" ++ u ++ c!")Tj") := by rw [ht]; simp
      rw [e]
      have hs2 : Sep (bytesOf (c!" (" ++ u ++ c!")Tj")) := sep_space _
      exact ⟨(h2.append hw1 hw2).append (opsTo_show hu) hs2, sep_append (sep_append h3 hw2) hs2⟩
    cases henc : p.look.enc with
    | none =>
      rw [henc] at h
      simp only [] at h
      injection h with h
      obtain ⟨rfl, ht⟩ := Prod.mk.inj h
      have hlat : ∀ c ∈ p.words.flatten, isLatin c = true := by
        intro c hc
        apply hl
        rw [← ht]
        simp only [List.mem_append]
        exact Or.inl (Or.inr (mem_cleanWords hc))
      have hb : bytesOf (cleanWords p.words) = (bytesOf p.words.flatten).flatMap escByte := bytesOf_escapeString hlat
      obtain ⟨f1, f2⟩ := fin _ _ hb ht.symm
      exact ⟨ops1 ++ wops, _, bytesOf p.words.flatten, f1, f2, fun hne => absurd hne hempty,
        fun _ => ⟨by simp [PartShows, henc], fun _ => hlat, rfl⟩, rfl, hexec⟩
    | some mode =>
      rw [henc] at h
      simp only [encodeWith] at h
      cases hmap : E p.look.st.family mode with
      | none => simp [hmap] at h
      | some map =>
        simp only [hmap] at h
        cases henc2 : encodeText map (cleanWords p.words) with
        | error e => simp [henc2] at h
        | ok u =>
          simp only [henc2] at h
          injection h with h
          obtain ⟨rfl, ht⟩ := Prod.mk.inj h
          obtain ⟨gs, g1, g2, g3, g4⟩ := encodeText_ok (fun c g => hE _ _ map c g hmap) henc2
          obtain ⟨f1, f2⟩ := fin _ _ g4 ht.symm
          refine ⟨ops1 ++ wops, _, gs.flatMap asPair, f1, f2, fun hne => absurd hne hempty,
            fun _ => ⟨?_, by simp, rfl⟩, rfl, hexec⟩
          unfold PartShows
          rw [henc]
          exact ⟨map, gs, hmap, g1, rfl⟩

/-! ### lines -/

/-- something a run shows: the text of the list, or a part of a line; with the moves made before it -/
inductive ShItem
  | bullet (lc : ListCfg) (moves : List (Bytes × Bytes))
  | part (p : TPart) (factor : Rat) (moves : List (Bytes × Bytes))

/-- the vertical move as written -/
def TFmt.down (F : TFmt) (h : Rat) : Bytes := bytesOf ('-' :: F.fmt h)

/-- the moves to a line as written -/
def lineMoves (F : TFmt) (cfg : TCfg) (width : Rat) (l : TLine) (g : Geo) : List (Bytes × Bytes) :=
  if cfg.list.isSome ∧ g.atStart = true then
    [(b!"0", F.down (g.dy cfg l)), (bytesOf (F.raw (g.dx cfg width l)), b!"0")]
  else [(F.b (g.dx cfg width l), F.down (g.dy cfg l))]

/-- what is shown of a line after the moves `mv` -/
def lineItems (F : TFmt) (cfg : TCfg) (width : Rat) (l : TLine × Bool) (g : Geo) (mv : List (Bytes × Bytes)) : List ShItem :=
  (match cfg.list with
    | some lc => if g.atStart then [.bullet lc (mv ++ [(b!"0", F.down (g.dy cfg l.1))])] else []
    | none => []) ++
  (l.1.parts.filter fun p => p.words.flatten ≠ []).map fun p =>
    .part p (lineFactor cfg width l.2 l.1 g) (mv ++ lineMoves F cfg width l.1 g)

/-- what a run shows -/
def runItems (F : TFmt) (cfg : TCfg) (width : Rat) : List (TLine × Bool) → Geo → List (Bytes × Bytes) → List ShItem
  | [], _, _ => []
  | l :: ls, g, mv => lineItems F cfg width l g mv ++
      runItems F cfg width ls (g.next cfg width l.1) (mv ++ lineMoves F cfg width l.1 g)

/-- all moves of a run -/
def runMoves (F : TFmt) (cfg : TCfg) (width : Rat) : List (TLine × Bool) → Geo → List (Bytes × Bytes)
  | [], _ => []
  | l :: ls, g => lineMoves F cfg width l.1 g ++ runMoves F cfg width ls (g.next cfg width l.1)

/-- the string written for the text of a list: not escaped for a standard font; glyphs otherwise -/
def BulletStr (E : Encs) (enc : Option (Str × Str)) (t : Str) (s : Bytes) : Prop := match enc with
  | none => s = bytesOf t
  | some (f, m) => ∃ map gs, E f m = some map ∧ t.mapM map = some gs ∧ s = eol (gs.flatMap asPair)

/-- an event shows an item in its own font, size, colour and rise -/
def ItemEvent (F : TFmt) (E : Encs) (enc : Option (Str × Str)) (M : Metrics) (tm : List Bytes) (g0 : GS) : ShItem → Event → Prop
  | .bullet lc mv, e => ∃ gs s, e = .text gs tm mv s ∧ gs = lc.state.gs F gs ∧ gs.wordSpace = g0.wordSpace ∧
      BulletStr E enc lc.text s ∧ gs.cms = g0.cms
  | .part p factor mv, e => ∃ gs b, e = .text gs tm mv (eol b) ∧ gs = p.look.st.gs F gs ∧
      gs.wordSpace = bytesOf (F.tw (p.spaceWidth M * (factor - 1))) ∧ PartShows E p b ∧
      (p.look.enc = none → ∀ c ∈ p.words.flatten, isLatin c = true) ∧ gs.cms = g0.cms

theorem outputParts_ops {F : TFmt} (hF : F.Ok) {E : Encs} (hE : E.Ok) {refOf : Str → Str → Str} {M : Metrics} {y factor : Rat}
    {enc : Option (Str × Str)} (tm : List Bytes) (mv : List (Bytes × Bytes)) (g0 : GS) :
    ∀ (parts : List TPart) (s s' : LoopSt), (∀ p ∈ parts, p.look.st.Ok refOf) →
      outputParts F M E y factor parts s = .ok s' →
      ∃ t, s'.text = s.text ++ t ∧ ((∀ c ∈ t, isLatin c = true) → ∃ ops, OpsTo t ops ∧ Sep (bytesOf t) ∧
        ∀ m : MS, TxInv F refOf s.last m → m.text = some (tm, mv) → m.gs.cms = g0.cms → ∃ gs evs,
          exec m ops = some ({ m with gs := gs }, evs) ∧ TxInv F refOf s'.last { m with gs := gs } ∧ gs.cms = g0.cms ∧
          List.Forall₂ (ItemEvent F E enc M tm g0) ((parts.filter fun p => p.words.flatten ≠ []).map fun p => .part p factor mv) evs) := by
  intro parts
  induction parts with
  | nil =>
    intro s s' _ h
    cases h
    refine ⟨[], by simp, fun _ => ⟨[], OpsTo.nil, by simp [bytesOf], fun m hm _ hcm => ⟨m.gs, [], rfl, hm, hcm, by simp⟩⟩⟩
  | cons p parts ih =>
    intro s s' hok h
    unfold outputParts at h
    cases hp : outputPart F M E y factor p s with
    | error e => simp [hp] at h
    | ok s1 =>
      simp only [hp] at h
      obtain ⟨t2, ht2, h2⟩ := ih s1 s' (fun q hq => hok q (by simp [hq])) h
      -- the text of this part
      obtain ⟨last, t1, ho, hl, ht1⟩ : ∃ last t1, outputText F M E p (cleanWords p.words) factor s.last = .ok (last, t1) ∧
          s1.last = last ∧ s1.text = s.text ++ t1 := by
        unfold outputPart at hp
        cases ho : outputText F M E p (cleanWords p.words) factor s.last with
        | error e => simp [ho] at hp
        | ok r =>
          obtain ⟨last, t1⟩ := r
          simp only [ho] at hp
          split at hp
          · cases hg : outputGraphics F p s.x y (p.width + p.spaces * factor) s.glast with
            | error e => simp [hg] at hp
            | ok g => simp only [hg] at hp; cases hp; exact ⟨_, _, rfl, rfl, rfl⟩
          · cases hp; exact ⟨_, _, rfl, rfl, rfl⟩
      refine ⟨t1 ++ t2, by rw [ht2, ht1]; simp, ?_⟩
      intro hlat
      obtain ⟨ops1, sh, b, o1, o2, o3, o4, o5, o6⟩ := outputText_ops hF hE (hok p (by simp)) ho
        (fun c hc => hlat c (by simp [hc]))
      obtain ⟨ops2, q1, q2, q3⟩ := h2 fun c hc => hlat c (by simp [hc])
      refine ⟨(ops1 ++ sh) ++ ops2, o1.append q1 q2, sep_append o2 q2, ?_⟩
      intro m hm hmt hcm
      obtain ⟨e1, e2⟩ := o6 m hm
      rw [hl] at q3
      obtain ⟨gs, evs, e3, e4, e4', e5⟩ := q3 _ e2 hmt hcm
      by_cases hempty : p.words.flatten = []
      · rw [o3 hempty, List.append_nil]
        refine ⟨gs, evs, exec_append_of e1 e3, e4, e4', ?_⟩
        rw [List.filter_cons_of_neg (by intro h; exact (of_decide_eq_true h) hempty)]
        exact e5
      · obtain ⟨c1, c2, rfl⟩ := o4 hempty
        have e6 := exec_one (step_Tj (s := eol b) (show ({ m with gs := { p.look.st.gs F m.gs with
          wordSpace := bytesOf (F.tw (p.spaceWidth M * (factor - 1))) } } : MS).text = some (tm, mv) from hmt))
        refine ⟨gs, _, exec_append_of (exec_append_of e1 e6) e3, e4, e4', ?_⟩
        simp only [List.filter_cons, ne_eq, hempty, not_false_eq_true, decide_true, if_true, List.map_cons, List.nil_append,
          List.singleton_append]
        refine List.Forall₂.cons ?_ (by simpa using e5)
        exact ⟨_, b, rfl, rfl, rfl, c1, c2, hcm⟩

/-- a text of a list that can be shown: with a standard font, its parentheses have to be balanced, and it
must have no backslashes and carriage returns -/
def BulletOk (enc : Option (Str × Str)) (t : Str) : Prop :=
  enc = none → (∀ c ∈ t, isLatin c = true) → balanced 0 (bytesOf t) = true ∧ '\\' ∉ t ∧ '\r' ∉ t

theorem notMem_bytesOf {t : Str} (hl : ∀ c ∈ t, isLatin c = true) {c : Char} (hc : isLatin c = true) (h : c ∉ t) :
    latin1 c ∉ bytesOf t := by
  intro hm
  obtain ⟨d, hd, he⟩ := List.mem_map.1 hm
  rw [(latin1_eq (hl d hd) hc).1 he] at hd
  exact h hd

theorem listOperand_ok {E : Encs} (hE : E.Ok) {enc : Option (Str × Str)} {t u : Str} (hb : BulletOk enc t)
    (h : listOperand E enc t = .ok u) (hl : ∀ c ∈ u, isLatin c = true) :
    ∃ s, OpsTo (c!" (" ++ u ++ c!")Tj") [⟨[.str s], b!"Tj"⟩] ∧ BulletStr E enc t s := by
  unfold listOperand at h
  cases enc with
  | none =>
    cases h
    obtain ⟨h1, h2, h3⟩ := hb rfl hl
    exact ⟨bytesOf t, opsTo_show_raw h1 (notMem_bytesOf hl (c := '\\') (by decide) h2) (notMem_bytesOf hl (c := '\r') (by decide) h3), rfl⟩
  | some fm =>
    obtain ⟨f, md⟩ := fm
    simp only [encodeWith] at h
    cases hm : E f md with
    | none => simp [hm] at h
    | some map =>
      simp only [hm] at h
      obtain ⟨gs, g1, g2, g3, g4⟩ := encodeText_ok (fun c g => hE _ _ map c g hm) h
      exact ⟨_, opsTo_show g4, map, gs, hm, g1, rfl⟩

/-- what the paragraph is set up with is fine -/
structure CfgOk (F : TFmt) (refOf : Str → Str → Str) (cfg : TCfg) (enc : Option (Str × Str)) : Prop where
  state : ∀ lc, cfg.list = some lc → lc.state.Ok refOf ∧ BulletOk enc lc.text
  raw : ∀ lc, cfg.list = some lc → ∀ x, NumText (F.raw x)

theorem numText_neg {s : Str} (h : NumText s) : NumText ('-' :: s) := by
  refine ⟨by simp, ?_⟩
  intro c hc
  simp only [List.mem_cons] at hc
  rcases hc with rfl | hc
  · decide
  · exact h.2 c hc

theorem opsTo_Td {x y : Str} (hx : NumText x) (hy : NumText y) :
    OpsTo (c!" " ++ x ++ c!" " ++ y ++ c!" Td") [⟨[.num (bytesOf x), .num (bytesOf y)], b!"Td"⟩] := by
  have e : c!" " ++ x ++ c!" " ++ y ++ c!" Td" = ' ' :: numsOp [x, y] c!"Td" := by simp [numsOp]
  rw [e]
  exact (numsOp_ops (l := [x, y]) (w := c!"Td") (by simp [hx, hy]) (by decide) (by decide)).space

theorem lineStart_ops {F : TFmt} (hF : F.Ok) {E : Encs} (hE : E.Ok) {refOf : Str → Str → Str} {M : Metrics} {cfg : TCfg}
    {enc : Option (Str × Str)} (hc : CfgOk F refOf cfg enc) {width : Rat} {l : TLine} {o : OutSt} {t : Str}
    (h : lineStart F E cfg enc width l o = .ok t) (hl : ∀ c ∈ t, isLatin c = true)
    (hfirst : o.geo.atStart = true → o.last = ⟨none, none⟩) :
    ∃ ops, OpsTo t ops ∧ Sep (bytesOf t) ∧ ∀ (m : MS) tm mv, TxInv F refOf o.last m → m.text = some (tm, mv) → ∃ gs evs,
      exec m ops = some ({ m with gs := gs, text := some (tm, mv ++ lineMoves F cfg width l o.geo) }, evs) ∧
      TxInv F refOf o.last { m with gs := gs, text := some (tm, mv ++ lineMoves F cfg width l o.geo) } ∧ gs.cms = m.gs.cms ∧
      List.Forall₂ (ItemEvent F E enc M tm m.gs) (match cfg.list with
        | some lc => if o.geo.atStart then [.bullet lc (mv ++ [(b!"0", F.down (o.geo.dy cfg l))])] else []
        | none => []) evs := by
  have plain : t = c!" " ++ F.fmt (o.geo.dx cfg width l) ++ c!" -" ++ F.fmt (o.geo.dy cfg l) ++ c!" Td" →
      ¬ (cfg.list.isSome ∧ o.geo.atStart = true) →
      ∃ ops, OpsTo t ops ∧ Sep (bytesOf t) ∧ ∀ (m : MS) tm mv, TxInv F refOf o.last m → m.text = some (tm, mv) → ∃ gs,
      exec m ops = some ({ m with gs := gs, text := some (tm, mv ++ lineMoves F cfg width l o.geo) }, []) ∧
      TxInv F refOf o.last { m with gs := gs, text := some (tm, mv ++ lineMoves F cfg width l o.geo) } ∧ gs.cms = m.gs.cms := by
    intro ht hn
    have e : t = c!" " ++ F.fmt (o.geo.dx cfg width l) ++ c!" " ++ ('-' :: F.fmt (o.geo.dy cfg l)) ++ c!" Td" := by
      rw [ht]; simp
    have hm : lineMoves F cfg width l o.geo = [(F.b (o.geo.dx cfg width l), F.down (o.geo.dy cfg l))] := if_neg hn
    rw [hm]
    refine ⟨_, by rw [e]; exact opsTo_Td (hF.1.1 _) (numText_neg (hF.1.1 _)), by rw [ht]; exact sep_space _, ?_⟩
    intro m tm mv hi hmt
    exact ⟨m.gs, exec_one (step_Td hmt), ⟨hi.path, ⟨_, _, rfl⟩, hi.state, hi.factor⟩, rfl⟩
  unfold lineStart at h
  cases hlist : cfg.list with
  | none =>
    rw [hlist] at h
    injection h with h
    obtain ⟨ops, p1, p2, p3⟩ := plain h.symm (by simp [hlist])
    refine ⟨ops, p1, p2, ?_⟩
    intro m tm mv hi hmt
    obtain ⟨gs, q1, q2, q3⟩ := p3 m tm mv hi hmt
    exact ⟨gs, [], q1, q2, q3, by simp⟩
  | some lc =>
    rw [hlist] at h
    simp only [] at h
    by_cases hst : o.geo.atStart = true
    · rw [if_pos hst] at h
      unfold bulletText at h
      split at h
      · cases h
      · obtain ⟨hs, hb⟩ := hc.state lc hlist
        obtain ⟨t1, ops1, c1, c2, c3, c4⟩ := compare_ops hF hs o.last.state
        rw [c1] at h
        simp only [] at h
        cases hop : listOperand E enc lc.text with
        | error e => simp [hop] at h
        | ok u =>
          simp only [hop] at h
          injection h with h
          have hul : ∀ c ∈ u, isLatin c = true := by
            intro c hc'
            apply hl
            rw [← h]
            simp only [List.mem_append]
            exact Or.inl (Or.inl (Or.inl (Or.inr hc')))
          obtain ⟨b, b1, b2⟩ := listOperand_ok hE hb hop hul
          have hm : lineMoves F cfg width l o.geo =
              [(b!"0", F.down (o.geo.dy cfg l)), (bytesOf (F.raw (o.geo.dx cfg width l)), b!"0")] := if_pos ⟨by simp [hlist], hst⟩
          rw [hm]
          have hz : NumText c!"0" := by unfold NumText; decide
          have e : t = (c!" " ++ c!"0" ++ c!" " ++ ('-' :: F.fmt (o.geo.dy cfg l)) ++ c!" Td") ++ (t1 ++ ((c!" (" ++ u ++ c!")Tj") ++
              (c!" " ++ F.raw (o.geo.dx cfg width l) ++ c!" " ++ c!"0" ++ c!" Td"))) := by
            rw [← h]; simp
          have o1 := opsTo_Td hz (numText_neg (hF.1.1 (o.geo.dy cfg l)))
          have o2 := b1
          have o3 := opsTo_Td (hc.raw lc hlist (o.geo.dx cfg width l)) hz
          refine ⟨_, by rw [e]; exact o1.append (c2.append (o2.append o3 (sep_space _)) (sep_space _)) (sep_append c3 (sep_space _)), by rw [e]; exact sep_space _, ?_⟩
          intro m tm mv hi hmt
          have hnone := hfirst hst
          have e1 := exec_one (step_Td (x := bytesOf c!"0") (y := bytesOf ('-' :: F.fmt (o.geo.dy cfg l))) hmt)
          have e2 := c4 { m with text := some (tm, mv ++ [(bytesOf c!"0", bytesOf ('-' :: F.fmt (o.geo.dy cfg l)))]) } hi.path (by
            intro o' ho'; rw [hnone] at ho'; cases ho')
          have e3 := exec_one (step_Tj (s := b) (m := { m with gs := lc.state.gs F m.gs, text := some (tm, mv ++ [(bytesOf c!"0", bytesOf ('-' :: F.fmt (o.geo.dy cfg l)))]) }) rfl)
          have e4 := exec_one (step_Td (x := bytesOf (F.raw (o.geo.dx cfg width l))) (y := bytesOf c!"0") (m := { m with gs := lc.state.gs F m.gs, text := some (tm, mv ++ [(bytesOf c!"0", bytesOf ('-' :: F.fmt (o.geo.dy cfg l)))]) }) rfl)
          have e5 := exec_append_of e1 (exec_append_of e2 (exec_append_of e3 e4))
          refine ⟨lc.state.gs F m.gs, [.text (lc.state.gs F m.gs) tm (mv ++ [(b!"0", F.down (o.geo.dy cfg l))]) b], ?_, ?_, rfl, ?_⟩
          rotate_left 2
          · simp only [if_pos hst]
            exact List.Forall₂.cons ⟨lc.state.gs F m.gs, b, rfl, rfl, rfl, b2, rfl⟩ List.Forall₂.nil
          · rw [e5]
            simp [TFmt.down, bytesOf, latin1]
          · refine ⟨hi.path, ⟨_, _, rfl⟩, ?_, ?_⟩
            · intro o' ho'; rw [hnone] at ho'; cases ho'
            · intro o' ho'; rw [hnone] at ho'; cases ho'
    · rw [if_neg hst] at h
      injection h with h
      obtain ⟨ops, p1, p2, p3⟩ := plain h.symm (by simp [hst])
      refine ⟨ops, p1, p2, ?_⟩
      intro m tm mv hi hmt
      obtain ⟨gs, q1, q2, q3⟩ := p3 m tm mv hi hmt
      exact ⟨gs, [], q1, q2, q3, by simp [hst]⟩

theorem streamLines_ops {F : TFmt} (hF : F.Ok) {E : Encs} (hE : E.Ok) {refOf : Str → Str → Str} {M : Metrics} {cfg : TCfg}
    {enc : Option (Str × Str)} (hc : CfgOk F refOf cfg enc) {width : Rat} (tm : List Bytes) (g0 : GS) :
    ∀ (ls : List (TLine × Bool)) (o o' : OutSt), (∀ l ∈ ls, ∀ p ∈ l.1.parts, p.look.st.Ok refOf) →
      (o.geo.atStart = true → o.last = ⟨none, none⟩) →
      streamLines F M E cfg enc width ls o = .ok o' →
      ∃ t, o'.text = o.text ++ t ∧ ((∀ c ∈ t, isLatin c = true) → ∃ ops, OpsTo t ops ∧ Sep (bytesOf t) ∧
        ∀ (m : MS) mv, TxInv F refOf o.last m → m.text = some (tm, mv) → (o.geo.atStart = true → m.gs = g0) → m.gs.cms = g0.cms → ∃ gs evs,
          exec m ops = some ({ m with gs := gs, text := some (tm, mv ++ runMoves F cfg width ls o.geo) }, evs) ∧ gs.cms = g0.cms ∧
          List.Forall₂ (ItemEvent F E enc M tm g0) (runItems F cfg width ls o.geo mv) evs) := by
  intro ls
  induction ls with
  | nil =>
    intro o o' _ _ h
    cases h
    refine ⟨[], by simp, fun _ => ⟨[], OpsTo.nil, by simp [bytesOf], fun m mv _ hmt _ hcm => ⟨m.gs, [], ?_, hcm, List.Forall₂.nil⟩⟩⟩
    simp [exec, runMoves, ← hmt]
  | cons l ls ih =>
    intro o o' hok hfirst h
    unfold streamLines at h
    cases h1 : addLineToStream F M E cfg enc width o l with
    | error e => simp [h1] at h
    | ok o1 =>
      simp only [h1] at h
      unfold addLineToStream at h1
      cases h2 : lineStart F E cfg enc width l.1 o with
      | error e => simp [h2] at h1
      | ok t1 =>
        simp only [h2] at h1
        cases h3 : outputParts F M E (o.y - o.geo.dy cfg l.1) (lineFactor cfg width l.2 l.1 o.geo) l.1.parts
            { x := o.geo.x cfg width l.1, last := o.last, glast := o.glast, text := o.text ++ t1, graphics := o.graphics,
              ids := o.ids } with
        | error e => simp [h3] at h1
        | ok r =>
          simp only [h3] at h1
          injection h1 with h1
          have hgeo : o1.geo = o.geo.next cfg width l.1 := by rw [← h1]
          have hlast : o1.last = r.last := by rw [← h1]
          have htext : o1.text = r.text := by rw [← h1]
          have hns : o1.geo.atStart = true → False := by
            rw [hgeo]; simp [Geo.atStart, Geo.next]
          obtain ⟨t3, ht3, h4⟩ := ih o1 o' (fun l' hl' => hok l' (by simp [hl'])) (fun hh => (hns hh).elim) h
          obtain ⟨t2, ht2, h5⟩ := outputParts_ops hF hE (enc := enc) tm [] g0 l.1.parts _ r (hok l (by simp)) h3
          refine ⟨t1 ++ (t2 ++ t3), by rw [ht3, htext, ht2]; simp, ?_⟩
          intro hlat
          obtain ⟨ops1, a1, a2, a3⟩ := lineStart_ops hF hE (M := M) hc h2 (fun c hc => hlat c (by simp [hc])) hfirst
          obtain ⟨ops3, c1, c2, c3⟩ := h4 fun c hc => hlat c (by simp [hc])
          have hlat2 : ∀ c ∈ t2, isLatin c = true := fun c hc => hlat c (by simp [hc])
          obtain ⟨ops2, b1, b2, _⟩ := h5 hlat2
          refine ⟨ops1 ++ (ops2 ++ ops3), a1.append (b1.append c1 c2) (sep_append b2 c2), sep_append a2 (sep_append b2 c2), ?_⟩
          intro m mv hi hmt hg0 hcm
          obtain ⟨gs1, evs1, e1, e2, ecm, e3⟩ := a3 m tm mv hi hmt
          obtain ⟨t2', ht2', h5'⟩ := outputParts_ops hF hE (enc := enc) tm (mv ++ lineMoves F cfg width l.1 o.geo) g0 l.1.parts _ r
            (hok l (by simp)) h3
          have : t2' = t2 := List.append_cancel_left (ht2'.symm.trans ht2)
          subst this
          obtain ⟨ops2', b1', _, b3⟩ := h5' hlat2
          rw [b1'.unique b1] at b3
          obtain ⟨gs2, evs2, f1, f2, fcm, f3⟩ := b3 _ e2 rfl (ecm.trans hcm)
          rw [hlast, hgeo] at c3
          obtain ⟨gs3, evs3, k1, kcm, k2⟩ := c3 _ _ f2 rfl (fun hh => by rw [← hgeo] at hh; exact (hns hh).elim) fcm
          refine ⟨gs3, evs1 ++ (evs2 ++ evs3), ?_, kcm, ?_⟩
          rotate_left
          · rw [← List.append_assoc]
            exact List.rel_append (List.rel_append (by
              by_cases hst : o.geo.atStart = true
              · rw [hg0 hst] at e3; exact e3
              · cases hlist : cfg.list with
                | none => rw [hlist] at e3; cases e3; exact List.Forall₂.nil
                | some lc =>
                  rw [hlist] at e3
                  simp only [if_neg hst] at e3 ⊢
                  cases e3; exact List.Forall₂.nil) f3) k2
          · have := exec_append_of e1 (exec_append_of f1 k1)
            simpa [runMoves] using this

/-- what a run writes shows what it should, and keeps the transformation -/
theorem textOut_ops_cms {F : TFmt} (hF : F.Ok) {E : Encs} (hE : E.Ok) {refOf : Str → Str → Str} {M : Metrics} {cfg : TCfg}
    {enc : Option (Str × Str)} (hc : CfgOk F refOf cfg enc) {width height : Rat} {pos : TPos} {correct : Bool} {o : OutSt}
    (hok : ∀ l ∈ (textRun M cfg width height pos).lines, ∀ p ∈ l.1.parts, p.look.st.Ok refOf)
    (h : textOut F M E cfg enc width height pos correct = .ok o) (hl : ∀ c ∈ o.text, isLatin c = true) :
    ∃ ops, OpsTo o.text ops ∧ Sep (bytesOf o.text) ∧
      ∀ (m : MS) tm mv, m.path = [] → m.text = some (tm, mv) → ∃ gs evs,
        exec m ops = some ({ m with gs := gs, text := some (tm, mv ++ runMoves F cfg width
          (textRun M cfg width height pos).lines ⟨false, 0, pos.isFirstLine, correct⟩) }, evs) ∧ gs.cms = m.gs.cms ∧
        List.Forall₂ (ItemEvent F E enc M tm m.gs)
          (runItems F cfg width (textRun M cfg width height pos).lines ⟨false, 0, pos.isFirstLine, correct⟩ mv) evs := by
  unfold textOut at h
  obtain ⟨t, ht, h1⟩ := streamLines_ops hF hE hc [] ⟨[], [], [], [], ([], []), [], ([], []), [], []⟩ _ (outInit pos.isFirstLine correct) o hok (fun _ => rfl) h
  have ht' : o.text = t := by rw [ht]; rfl
  obtain ⟨ops, a1, a2, _⟩ := h1 (by rw [← ht']; exact hl)
  refine ⟨ops, by rw [ht']; exact a1, by rw [ht']; exact a2, ?_⟩
  intro m tm mv hp hmt
  obtain ⟨t2, ht2, h2⟩ := streamLines_ops hF hE hc tm m.gs _ (outInit pos.isFirstLine correct) o hok (fun _ => rfl) h
  have : t2 = t := List.append_cancel_left (ht2.symm.trans ht)
  subst this
  obtain ⟨ops', b1, _, b3⟩ := h2 (by rw [← ht']; exact hl)
  rw [b1.unique a1] at b3
  exact b3 m mv ⟨hp, ⟨_, _, hmt⟩, by intro o ho; simp [outInit] at ho, by intro t ht; simp [outInit] at ht⟩ hmt (fun _ => rfl) rfl

/-- what a run writes shows what it should -/
theorem textOut_ops {F : TFmt} (hF : F.Ok) {E : Encs} (hE : E.Ok) {refOf : Str → Str → Str} {M : Metrics} {cfg : TCfg}
    {enc : Option (Str × Str)} (hc : CfgOk F refOf cfg enc) {width height : Rat} {pos : TPos} {correct : Bool} {o : OutSt}
    (hok : ∀ l ∈ (textRun M cfg width height pos).lines, ∀ p ∈ l.1.parts, p.look.st.Ok refOf)
    (h : textOut F M E cfg enc width height pos correct = .ok o) (hl : ∀ c ∈ o.text, isLatin c = true) :
    ∃ ops, OpsTo o.text ops ∧ Sep (bytesOf o.text) ∧
      ∀ (m : MS) tm mv, m.path = [] → m.text = some (tm, mv) → ∃ gs evs,
        exec m ops = some ({ m with gs := gs, text := some (tm, mv ++ runMoves F cfg width
          (textRun M cfg width height pos).lines ⟨false, 0, pos.isFirstLine, correct⟩) }, evs) ∧
        List.Forall₂ (ItemEvent F E enc M tm m.gs)
          (runItems F cfg width (textRun M cfg width height pos).lines ⟨false, 0, pos.isFirstLine, correct⟩ mv) evs := by
  obtain ⟨ops, h1, h2, h3⟩ := textOut_ops_cms hF hE hc hok h hl
  refine ⟨ops, h1, h2, fun m tm mv hp hmt => ?_⟩
  obtain ⟨gs, evs, e1, -, e2⟩ := h3 m tm mv hp hmt
  exact ⟨gs, evs, e1, e2⟩

end Verif
