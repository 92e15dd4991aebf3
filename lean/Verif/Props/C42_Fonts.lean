import Verif.Props.C43_Registered
import Verif.Props.C26_TextState
import Verif.Props.C40_C41_Page
import Verif.Lemmas.Table
import Verif.Model.PdfText
/-! C42: the fonts of the pages of a document. -/
namespace Verif
open Spec

/-- `self.fonts[family].get(mode)` -/
def Fonts.at (s : Fonts) (k : FKey) : Option Font := (dget k.1 s.fonts).bind (dget k.2)

/-- what happens to a document that is alone in its process, as far as fonts are concerned: `text` lays out
a paragraph with parts in the given styles (family, bold, italic) and adds it; `used` are the fonts it
reports, in any order. -/
inductive TextOp
  | register (k : FKey) (path : Str)
  | newPage (w h top bottom left right : Rat)
  | goto (i : Nat)
  | addObject (d : List (Key × Obj))
  | text (styles : List (Str × Bool × Bool)) (used : List FKey) (x y width height : Rat) (text graphics : Str)
      (ids : List (Str × List IdRect)) (move : Str)

/-- `PDFState.__init__`, text.py:22-37: the font of a style -/
def styleFont (files : FontFiles) (p : FProc) (s : Fonts) (st : Str × Bool × Bool) :
    Except PyErr ((FKey × Font) × FProc × Fonts) :=
  match s.getFont files p (st.1, stateMode s st.1 st.2.1 st.2.2) with
  | .error e => .error e
  | .ok (f, p', s') => .ok (((st.1, stateMode s st.1 st.2.1 st.2.2), f), p', s')

/-- the fonts of the parts of a paragraph -/
def styleFonts (files : FontFiles) : List (Str × Bool × Bool) → FProc → Fonts →
    Except PyErr (List (FKey × Font) × FProc × Fonts)
  | [], p, s => .ok ([], p, s)
  | st :: l, p, s => match styleFont files p s st with
    | .error e => .error e
    | .ok (kf, p', s') => match styleFonts files l p' s' with
      | .error e => .error e
      | .ok (r, p'', s'') => .ok (kf :: r, p'', s'')

/-- a document in its process, with what was shown so far: page, font, and the name written in the stream -/
structure DWorld where
  proc : FProc
  doc : PdfT
  shown : List (Nat × FKey × Str)

/-- is it a font dictionary that pages refer to? -/
def isFontDict (d : List (Key × Obj)) : Prop :=
  dget kSubtype d = some (.bytes b!"/Type1") ∨ dget kSubtype d = some (.bytes b!"/Type0")

/-- one operation -/
def DWorld.op (E : PdfEnv) (F : NumFmt) (w : DWorld) : TextOp → Except PyErr DWorld
  | .register k path => .ok { w with proc := w.proc.register k path }
  | .newPage a b c d e f => .ok { w with doc := w.doc.addPage a b c d e f }
  | .goto i => if i < w.doc.pages.length then .ok { w with doc := { w.doc with pageIndex := i } } else .error .indexError
  | .addObject d => .ok { w with doc := { w.doc with base := (w.doc.base.addDict d).2 } }
  | .text styles used x y width height text graphics ids move =>
    match styleFonts E.files styles w.proc w.doc.fonts with
    | .error e => .error e
    | .ok (kfs, p, s) =>
      if (∀ kf ∈ kfs, kf.1 ∈ used) ∧ (∀ k ∈ used, k ∈ kfs.map Prod.fst) then
        match ({ w.doc with fonts := s } : PdfT).addText E F p x y width height text graphics used ids move with
        | .error e => .error e
        | .ok (p', doc) => .ok ⟨p', doc, w.shown ++ kfs.map fun kf => (w.doc.pageIndex, kf.1, kf.2.ref)⟩
      else .error .assertion

def DWorld.run (E : PdfEnv) (F : NumFmt) : List TextOp → DWorld → Except PyErr DWorld
  | [], w => .ok w
  | o :: l, w => match w.op E F o with
    | .error e => .error e
    | .ok w' => w'.run E F l

/-- a new document in a new process -/
def DWorld.start (E : PdfEnv) (version : Str) : Except PyErr DWorld :=
  match PdfT.new E ⟨[], []⟩ version with
  | .error e => .error e
  | .ok (p, s) => .ok ⟨p, s, []⟩

/-- the font asked for: the standard one, or one from a file registered under the name -/
def FaceFor (files : FontFiles) (past : List TextOp) (k : FKey) (face : Face) : Prop :=
  (∃ fam ∈ standardFonts, fam.1 = k.1 ∧ ∃ base, dget k.2 fam.2 = some base ∧ face = .std base) ∨
  (∃ path t, TextOp.register k path ∈ past ∧ files path = some t ∧ face = .file path)

/-- the object is the font dictionary of a font -/
def FontObj (files : FontFiles) (b : Base) (id : Nat) (face : Face) : Prop :=
  ∃ d, b.dictAt id = some d ∧ isFontDict d ∧ match face with
    | .std base => dget kBaseFont d = some (nameBytes base)
    | .file path => ∃ t, files path = some t ∧ dget kBaseFont d = some (nameBytes t.name)

/-- a font that the document has looked up under its own name -/
def Owned (p : FProc) (k : FKey) : Prop := isStandard k.1 = true ∨ k ∈ p.loaded

/-- what is known about the fonts of the only document -/
structure FontInv (files : FontFiles) (past : List TextOp) (p : FProc) (s : Fonts) : Prop where
  hasN : s.HasN
  std : ∀ fam, isStandard fam = true → ∃ l, dget fam s.fonts = some l
  bound : ∀ k f, s.at k = some f → ∃ n, n < s.index ∧ f.ref = fontRef n
  loaded : ∀ k, k ∈ p.loaded → isStandard k.1 = false ∧ ∃ f, s.at k = some f
  inj : ∀ k k' f f', Owned p k → Owned p k' → s.at k = some f → s.at k' = some f' → f.ref = f'.ref → k = k'
  face : ∀ k f, Owned p k → s.at k = some f → FaceFor files past k f.face
  reg : ∀ k path, dget k p.registered = some path → TextOp.register k path ∈ past

theorem fontRef_inj {m n : Nat} (h : fontRef m = fontRef n) : m = n := by
  unfold fontRef at h
  exact natStr_inj (List.cons_inj_right _ |>.1 h)

theorem FaceFor.mono {files : FontFiles} {past past' : List TextOp} {k : FKey} {face : Face} (h : FaceFor files past k face)
    (hs : ∀ o ∈ past, o ∈ past') : FaceFor files past' k face := by
  rcases h with h | ⟨path, t, h1, h2, h3⟩
  · exact Or.inl h
  · exact Or.inr ⟨path, t, hs _ h1, h2, h3⟩

theorem FontInv.mono {files : FontFiles} {past past' : List TextOp} {p : FProc} {s : Fonts} (h : FontInv files past p s)
    (hs : ∀ o ∈ past, o ∈ past') : FontInv files past' p s :=
  ⟨h.hasN, h.std, h.bound, h.loaded, h.inj, fun k f h1 h2 => (h.face k f h1 h2).mono hs, fun k path h1 => hs _ (h.reg k path h1)⟩

theorem FontInv.register {files : FontFiles} {past : List TextOp} {p : FProc} {s : Fonts} (h : FontInv files past p s) (k : FKey) (path : Str) :
    FontInv files (past ++ [.register k path]) (p.register k path) s := by
  have h' := h.mono (past' := past ++ [.register k path]) (fun o ho => List.mem_append_left _ ho)
  refine ⟨h'.hasN, h'.std, h'.bound, h'.loaded, h'.inj, h'.face, ?_⟩
  intro k' q hq
  simp only [FProc.register, dget_dset] at hq
  split at hq
  · rename_i hk; cases hq; subst hk; simp
  · exact h'.reg k' q hq

theorem at_mem {s : Fonts} {k : FKey} {f : Font} (h : s.at k = some f) : ∃ l, (k.1, l) ∈ s.fonts ∧ (k.2, f) ∈ l := by
  unfold Fonts.at at h
  obtain ⟨l, h1, h2⟩ := Option.bind_eq_some_iff.1 h
  exact ⟨l, dget_mem h1, dget_mem h2⟩

theorem FontInv.new (files : FontFiles) : FontInv files [] ⟨[], []⟩ Fonts.new := by
  refine ⟨Fonts.new_hasN, ?_, ?_, by simp, ?_, ?_, by simp [dget]⟩
  · intro fam h
    simp only [isStandard, List.any_eq_true, decide_eq_true_eq] at h
    obtain ⟨x, hx, rfl⟩ := h
    have : ∀ x ∈ standardFonts, (dget x.1 Fonts.new.fonts).isSome = true := by decide +kernel
    exact Option.isSome_iff_exists.1 (this x hx)
  · intro k f h
    obtain ⟨l, h1, h2⟩ := at_mem h
    have : ∀ x ∈ Fonts.new.fonts, ∀ y ∈ x.2, ∃ n ∈ List.range 15, y.2.ref = fontRef n := by decide +kernel
    obtain ⟨n, hn, e⟩ := this _ h1 _ h2
    exact ⟨n, by have : Fonts.new.index = 15 := by decide +kernel
                 simpa [this] using hn, e⟩
  · intro k k' f f' _ _ h h' he
    obtain ⟨l, h1, h2⟩ := at_mem h
    obtain ⟨l', h1', h2'⟩ := at_mem h'
    have : ∀ x ∈ Fonts.new.fonts, ∀ y ∈ x.2, ∀ x' ∈ Fonts.new.fonts, ∀ y' ∈ x'.2, y.2.ref = y'.2.ref → x.1 = x'.1 ∧ y.1 = y'.1 := by
      decide +kernel
    obtain ⟨e1, e2⟩ := this _ h1 _ h2 _ h1' _ h2' he
    exact Prod.ext e1 e2
  · intro k f _ h
    obtain ⟨l, h1, h2⟩ := at_mem h
    have : ∀ x ∈ Fonts.new.fonts, ∀ y ∈ x.2, ∃ fam ∈ standardFonts, fam.1 = x.1 ∧ (dget y.1 fam.2).map Face.std = some y.2.face := by
      decide +kernel
    obtain ⟨fam, hf, e1, e2⟩ := this _ h1 _ h2
    obtain ⟨b, hb, e3⟩ := Option.map_eq_some_iff.1 e2
    exact Or.inl ⟨fam, hf, e1, b, hb, e3.symm⟩

/-- later tables have the same fonts under the names that were looked up -/
def Keeps (p p' : FProc) (s s' : Fonts) : Prop :=
  (∀ k, k ∈ p.loaded → k ∈ p'.loaded) ∧ ∀ k f, Owned p k → s.at k = some f → s'.at k = some f

theorem Keeps.refl (p : FProc) (s : Fonts) : Keeps p p s s := ⟨fun _ h => h, fun _ _ _ h => h⟩

theorem Owned.keeps {p p' : FProc} {k : FKey} (h : Owned p k) (hl : ∀ k, k ∈ p.loaded → k ∈ p'.loaded) : Owned p' k :=
  h.imp_right (hl k)

theorem Keeps.trans {p p' p'' : FProc} {s s' s'' : Fonts} (h : Keeps p p' s s') (h' : Keeps p' p'' s' s'') : Keeps p p'' s s'' :=
  ⟨fun k hk => h'.1 k (h.1 k hk), fun k f ho hk => h'.2 k f (ho.keeps h.1) (h.2 k f ho hk)⟩

theorem pick_at {s : Fonts} {k : FKey} {f g : Font} (h : s.pick k = .ok f) (hg : s.at k = some g) : f = g := by
  unfold Fonts.at at hg
  obtain ⟨l, h1, h2⟩ := Option.bind_eq_some_iff.1 hg
  simp only [Fonts.pick, h1, pickMode, h2] at h
  cases h; rfl

/-- the tables after loading a font -/
theorem at_load {files : FontFiles} {s s' : Fonts} {path : Str} {k : FKey} (h : s.load files path k = .ok s') (k' : FKey) :
    s'.at k' = if k' = k then some ⟨fontRef s.index, .file path⟩ else
      match s.at k' with
      | some f => some f
      | none => if k'.1 = k.1 ∧ k'.2 = c!"n" ∧ dget k.1 s.fonts = none then some ⟨fontRef s.index, .file path⟩ else none := by
  obtain ⟨_, _, he⟩ := Fonts.load_fonts h
  unfold Fonts.at
  rw [he, dget_dset]
  by_cases h1 : k'.1 = k.1
  · rw [if_pos h1]
    simp only [Option.bind_some, dget_dset]
    by_cases h2 : k'.2 = k.2
    · rw [if_pos h2, if_pos (Prod.ext h1 h2)]
    · rw [if_neg h2, if_neg (fun hh => h2 (by rw [hh])), h1]
      cases hd : dget k.1 s.fonts with
      | some fam =>
        simp only [Option.getD_some, Option.bind_some]
        cases dget k'.2 fam <;> simp
      | none =>
        simp only [Option.getD_none, Option.bind_none, dget, true_and, and_true]
        by_cases h3 : k'.2 = c!"n"
        · simp [h3]
        · simp [h3, Ne.symm h3]
  · rw [if_neg h1, if_neg (fun hh => h1 (by rw [hh]))]
    cases (dget k'.1 s.fonts).bind (dget k'.2) <;> simp [h1]

theorem FontInv.getFont {files : FontFiles} {past : List TextOp} {p p' : FProc} {s s' : Fonts} (h : FontInv files past p s)
    {k : FKey} {f : Font} (hk : isStandard k.1 = true → ∃ g, s.at k = some g) (hg : s.getFont files p k = .ok (f, p', s')) :
    FontInv files past p' s' ∧ Keeps p p' s s' ∧ s'.at k = some f ∧ Owned p' k := by
  rcases Fonts.getFont_cases hg with ⟨rfl, rfl, h1, h2⟩ | ⟨path, h1, h2, h3, h4, h5, rfl⟩
  · refine ⟨h, Keeps.refl _ _, ?_, h2⟩
    have : ∃ g, s'.at k = some g := h2.elim hk (fun h2 => (h.loaded k h2).2)
    obtain ⟨g, hg⟩ := this
    rw [pick_at h1 hg, hg]
  · have hat := at_load h4
    have hself : s'.at k = some ⟨fontRef s.index, .file path⟩ := by rw [hat, if_pos rfl]
    have hf : f = ⟨fontRef s.index, .file path⟩ := pick_at h5 hself
    obtain ⟨⟨t, ht⟩, hidx, hfonts⟩ := Fonts.load_fonts h4
    have hown : ∀ k', Owned { p with loaded := p.loaded ++ [k] } k' → k' = k ∨ Owned p k' := by
      intro k' hk'
      rcases hk' with hk' | hk'
      · exact Or.inr (Or.inl hk')
      · simp only [List.mem_append, List.mem_singleton] at hk'
        exact hk'.elim (fun h => Or.inr (Or.inr h)) Or.inl
    -- an owned name other than `k` keeps its font
    have hkeep : ∀ k' g, k' ≠ k → Owned p k' → s'.at k' = some g → s.at k' = some g := by
      intro k' g hne ho hg
      rw [hat, if_neg hne] at hg
      cases hs : s.at k' with
      | some f' => rw [hs] at hg; simpa using hg
      | none =>
        rw [hs] at hg
        simp only at hg
        split at hg
        · rename_i hc
          exfalso
          rcases ho with ho | ho
          · rw [hc.1] at ho
            rw [ho] at h1
            cases h1
          · obtain ⟨_, g', hg'⟩ := h.loaded k' ho
            rw [hs] at hg'
            cases hg'
        · cases hg
    have hknew : ∀ k' g, k' ≠ k → s.at k' = some g → s'.at k' = some g := by
      intro k' g hne hg
      rw [hat, if_neg hne, hg]
    have hnot : ¬ Owned p k := by
      rintro (ho | ho)
      · rw [h1] at ho; cases ho
      · exact h2 ho
    have hbound : ∀ k' g, s'.at k' = some g → ∃ n, n < s'.index ∧ g.ref = fontRef n := by
      intro k' g hg
      rw [hat] at hg
      split at hg
      · cases hg; exact ⟨s.index, by omega, rfl⟩
      · cases hs : s.at k' with
        | some f' =>
          rw [hs] at hg
          simp only [Option.some.injEq] at hg
          subst hg
          obtain ⟨n, hn, e⟩ := h.bound k' _ hs
          exact ⟨n, by omega, e⟩
        | none =>
          rw [hs] at hg
          simp only at hg
          split at hg
          · cases hg; exact ⟨s.index, by omega, rfl⟩
          · cases hg
    refine ⟨⟨h.hasN.load h4, ?_, hbound, ?_, ?_, ?_, h.reg⟩, ⟨?_, ?_⟩, ?_, ?_⟩
    · intro fam hfam
      obtain ⟨l, hl⟩ := h.std fam hfam
      rw [hfonts, dget_dset]
      split
      · exact ⟨_, rfl⟩
      · exact ⟨l, hl⟩
    · intro k' hk'
      simp only [List.mem_append, List.mem_singleton] at hk'
      rcases hk' with hk' | rfl
      · obtain ⟨a, g, b⟩ := h.loaded k' hk'
        refine ⟨a, g, hknew k' g ?_ b⟩
        rintro rfl
        exact h2 hk'
      · exact ⟨h1, _, hself⟩
    · intro a b fa fb ha hb hfa hfb he
      rcases Classical.em (a = k) with rfl | hna
      · rcases Classical.em (b = a) with rfl | hnb
        · rfl
        · exfalso
          have hb' := hkeep b fb hnb ((hown b hb).resolve_left hnb) hfb
          obtain ⟨n, hn, e⟩ := h.bound b fb hb'
          rw [hself] at hfa
          cases hfa
          rw [e] at he
          have := fontRef_inj he
          omega
      · have ha' := hkeep a fa hna ((hown a ha).resolve_left hna) hfa
        rcases Classical.em (b = k) with rfl | hnb
        · exfalso
          obtain ⟨n, hn, e⟩ := h.bound a fa ha'
          rw [hself] at hfb
          cases hfb
          rw [e] at he
          have := fontRef_inj he
          omega
        · exact h.inj a b fa fb ((hown a ha).resolve_left hna) ((hown b hb).resolve_left hnb) ha'
            (hkeep b fb hnb ((hown b hb).resolve_left hnb) hfb) he
    · intro a fa ha hfa
      rcases Classical.em (a = k) with rfl | hna
      · rw [hself] at hfa
        cases hfa
        exact Or.inr ⟨path, t, h.reg _ _ h3, ht, rfl⟩
      · exact h.face a fa ((hown a ha).resolve_left hna) (hkeep a fa hna ((hown a ha).resolve_left hna) hfa)
    · intro a ha
      exact List.mem_append_left _ ha
    · intro a fa ha hfa
      refine hknew a fa ?_ hfa
      rintro rfl
      exact hnot ha
    · rw [hf]; exact hself
    · exact Or.inr (by simp)

theorem stateMode_at {files : FontFiles} {past : List TextOp} {p : FProc} {s : Fonts} (h : FontInv files past p s)
    (fam : Str) (b i : Bool) (hstd : isStandard fam = true) : ∃ g, s.at (fam, stateMode s fam b i) = some g := by
  obtain ⟨l, hl⟩ := h.std fam hstd
  obtain ⟨fn, hn⟩ := h.hasN _ (dget_mem hl)
  unfold stateMode Fonts.at
  simp only [hstd, hl, if_true, Option.bind_some]
  generalize (if ((if b = true then c!"b" else []) ++ if i = true then c!"i" else []) = [] then c!"n"
    else (if b = true then c!"b" else []) ++ if i = true then c!"i" else [] : Str) = m
  cases hm : dget m l with
  | some g => exact ⟨g, by simp [hm]⟩
  | none => exact ⟨fn, by simpa using hn⟩

theorem FontInv.styleFonts {files : FontFiles} {past : List TextOp} (l : List (Str × Bool × Bool)) {p p' : FProc} {s s' : Fonts}
    (h : FontInv files past p s) {kfs : List (FKey × Font)} (hg : Verif.styleFonts files l p s = .ok (kfs, p', s')) :
    FontInv files past p' s' ∧ Keeps p p' s s' ∧ ∀ kf ∈ kfs, s'.at kf.1 = some kf.2 ∧ Owned p' kf.1 := by
  induction l generalizing p s kfs with
  | nil =>
    simp only [Verif.styleFonts] at hg
    cases hg
    exact ⟨h, Keeps.refl _ _, by simp⟩
  | cons st l ih =>
    simp only [Verif.styleFonts, styleFont] at hg
    cases h1 : s.getFont files p (st.1, stateMode s st.1 st.2.1 st.2.2) with
    | error e => rw [h1] at hg; cases hg
    | ok r =>
      obtain ⟨f, p1, s1⟩ := r
      rw [h1] at hg
      simp only at hg
      cases h2 : Verif.styleFonts files l p1 s1 with
      | error e => rw [h2] at hg; cases hg
      | ok r =>
        obtain ⟨r, p2, s2⟩ := r
        rw [h2] at hg
        cases hg
        obtain ⟨a1, a2, a3, a4⟩ := h.getFont (fun hs => stateMode_at h _ _ _ hs) h1
        obtain ⟨b1, b2, b3⟩ := ih a1 h2
        refine ⟨b1, a2.trans b2, ?_⟩
        intro kf hkf
        rcases List.mem_cons.1 hkf with rfl | hkf
        · exact ⟨b2.2 _ _ a4 a3, a4.keeps b2.1⟩
        · exact b3 kf hkf

/-! ### The objects -/

/-- what is known about a document: `used_fonts` are the embedded fonts -/
structure DInv (E : PdfEnv) (past : List TextOp) (p : FProc) (s : PdfT) : Prop where
  fonts : FontInv E.files past p s.fonts
  wf : s.base.Wf
  used : ∀ k ref id, (k, ref, id) ∈ s.used → Owned p k ∧ ∃ f, s.fonts.at k = some f ∧ f.ref = ref ∧ FontObj E.files s.base id f.face
  keys : (s.used.map Prod.fst).Nodup
  ids : ∀ k ref k' ref' id, (k, ref, id) ∈ s.used → (k', ref', id) ∈ s.used → k = k'
  objs : ∀ id d, s.base.dictAt id = some d → isFontDict d → ∃ k ref, (k, ref, id) ∈ s.used
  pages : ∀ pg ∈ s.pages, ∀ ref id, dget ref pg.fonts = some id → ∃ k, (k, ref, id) ∈ s.used

/-- only objects are added -/
def Grows (b b' : Base) : Prop := b'.Wf ∧ b.count ≤ b'.count ∧ ∀ id d, b.dictAt id = some d → b'.dictAt id = some d

theorem Grows.add {b : Base} (h : b.Wf) (d) : Grows b (b.addDict d).2 := by
  refine ⟨h.addDict d, by simp [addDict_count], ?_⟩
  intro id d' hd
  rw [dictAt_add_ne h d (by have := dictAt_lt h hd; omega)]
  exact hd

theorem Grows.trans {a b c : Base} (h : Grows a b) (h' : Grows b c) : Grows a c :=
  ⟨h'.1, h.2.1.trans h'.2.1, fun id d hd => h'.2.2 id d (h.2.2 id d hd)⟩

theorem FontObj.grows {files : FontFiles} {b b' : Base} {id : Nat} {face : Face} (h : FontObj files b id face) (hg : Grows b b') :
    FontObj files b' id face := by
  obtain ⟨d, h1, h2, h3⟩ := h
  exact ⟨d, hg.2.2 id d h1, h2, h3⟩

theorem font_dicts_add {b : Base} (h : b.Wf) (d) {id : Nat} {d'} (hd : (b.addDict d).2.dictAt id = some d') :
    (id = b.count ∧ d' = d) ∨ b.dictAt id = some d' := by
  by_cases hi : id = b.count
  · subst hi
    rw [dictAt_add_self h] at hd
    exact Or.inl ⟨rfl, by simpa using hd.symm⟩
  · rw [dictAt_add_ne h d hi] at hd
    exact Or.inr hd

/-- adding a font makes one font dictionary, with a new number -/
theorem addFontObj_spec {num : Rat → Obj} {files : FontFiles} {b b' : Base} {f : Font} {id : Nat} (h : b.Wf)
    (hd : ∀ path t, files path = some t → dget kSubtype t.descriptor = none)
    (ha : addFontObj num files b f = .ok (id, b')) :
    Grows b b' ∧ b.count ≤ id ∧ FontObj files b' id f.face ∧
      ∀ i d, b'.dictAt i = some d → isFontDict d → i = id ∨ b.dictAt i = some d := by
  unfold addFontObj at ha
  cases hf : f.face with
  | std base =>
    rw [hf] at ha
    simp only [Except.ok.injEq] at ha
    have e1 : id = b.count := (congrArg Prod.fst ha).symm
    have e2 : b' = (b.addDict (stdFontDict base)).2 := (congrArg Prod.snd ha).symm
    subst e1 e2
    refine ⟨Grows.add h _, le_refl _, ⟨_, dictAt_add_self h _, Or.inl ?_, ?_⟩, ?_⟩
    · simp [stdFontDict, dget, kType, kSubtype]
    · simp [stdFontDict, dget, kType, kSubtype, kBaseFont]
    · intro i d hi _
      exact (font_dicts_add h _ hi).imp_left fun h => h.1
  | file path =>
    rw [hf] at ha
    simp only at ha
    cases ht : files path with
    | none => rw [ht] at ha; cases ha
    | some t =>
      rw [ht] at ha
      simp only [Except.ok.injEq] at ha
      unfold addTTFont at ha
      simp only at ha
      generalize hd1 : ([(kFilter, .bytes b!"/FlateDecode"), (kStream, .bytes t.bytes), (.str c!"Length1", .int t.bytes.length)] : List (Key × Obj)) = d1 at ha
      generalize hd2 : (dset (.str c!"FontFile2") (.ref (b.addDict d1).1)
        ((kType, .bytes b!"/FontDescriptor") :: (.str c!"FontName", nameBytes t.name) :: t.descriptor) : List (Key × Obj)) = d2 at ha
      generalize hd3 : ([(kType, .bytes b!"/Font"), (.str c!"FontDescriptor", .ref ((b.addDict d1).2.addDict d2).1), (kBaseFont, nameBytes t.name),
        (kSubtype, .bytes b!"/CIDFontType2"), (.str c!"CIDToGIDMap", .bytes b!"/Identity"),
        (.str c!"CIDSystemInfo", .dict [(.str c!"Registry", .str c!"Adobe"), (.str c!"Ordering", .str c!"Identity"),
          (.str c!"Supplement", .int 0)]),
        (.str c!"W", .seq ((charWidths t.glyphs).map (wObj num)))] : List (Key × Obj)) = d3 at ha
      generalize hd4 : ([(kFilter, .bytes b!"/FlateDecode"), (kStream, .bytes ((toUnicode t.cmap).map latin1))] : List (Key × Obj)) = d4 at ha
      generalize hd5 : ([(kType, .bytes b!"/Font"), (kSubtype, .bytes b!"/Type0"), (kBaseFont, nameBytes t.name),
        (kEncoding, .bytes b!"/Identity-H"), (.str c!"DescendantFonts", .seq [.ref (((b.addDict d1).2.addDict d2).2.addDict d3).1]),
        (.str c!"ToUnicode", .ref ((((b.addDict d1).2.addDict d2).2.addDict d3).2.addDict d4).1)] : List (Key × Obj)) = d5 at ha
      have w1 := h.addDict d1
      have w2 := w1.addDict d2
      have w3 := w2.addDict d3
      have w4 := w3.addDict d4
      have e2 : b' = (((((b.addDict d1).2.addDict d2).2.addDict d3).2.addDict d4).2.addDict d5).2 := (congrArg Prod.snd ha).symm
      have e1 : id = ((((b.addDict d1).2.addDict d2).2.addDict d3).2.addDict d4).2.count := (congrArg Prod.fst ha).symm
      have g := ((((Grows.add h d1).trans (Grows.add w1 d2)).trans (Grows.add w2 d3)).trans (Grows.add w3 d4))
      rw [e2]
      refine ⟨g.trans (Grows.add w4 d5), e1 ▸ g.2.1, ⟨d5, ?_, Or.inr ?_, t, ht, ?_⟩, ?_⟩
      · rw [e1]; exact dictAt_add_self w4 d5
      · simp [← hd5, dget, kType, kSubtype]
      · simp [← hd5, dget, kType, kSubtype, kBaseFont]
      · intro i d hi hfd
        rcases font_dicts_add w4 _ hi with ⟨h1, _⟩ | hi
        · exact Or.inl (h1.trans e1.symm)
        rcases font_dicts_add w3 _ hi with ⟨_, rfl⟩ | hi
        · simp [isFontDict, ← hd4, dget, kFilter, kStream, kSubtype] at hfd
        rcases font_dicts_add w2 _ hi with ⟨_, rfl⟩ | hi
        · simp [isFontDict, ← hd3, dget, kType, kSubtype, kBaseFont] at hfd
        rcases font_dicts_add w1 _ hi with ⟨_, rfl⟩ | hi
        · exfalso
          have : dget kSubtype d = none := by
            rw [← hd2, dget_dset_ne (by simp [kSubtype])]
            simp [dget, kType, kSubtype]
            exact hd path t ht
          simp [isFontDict, this] at hfd
        rcases font_dicts_add h _ hi with ⟨_, rfl⟩ | hi
        · simp [isFontDict, ← hd1, dget, kFilter, kStream, kSubtype] at hfd
        · exact Or.inr hi

/-- the descriptors of the files have no entry `Subtype` (fonts.py:325-335) -/
def PdfEnv.Ok (E : PdfEnv) : Prop := ∀ path t, E.files path = some t → dget kSubtype t.descriptor = none

/-- adding objects that are no fonts, and changing pages in other ways -/
theorem DInv.other {E : PdfEnv} {past : List TextOp} {p : FProc} {s s' : PdfT} (h : DInv E past p s)
    (h1 : s'.fonts = s.fonts) (h2 : s'.used = s.used) (h3 : Grows s.base s'.base)
    (h4 : ∀ id d, s'.base.dictAt id = some d → isFontDict d → s.base.dictAt id = some d)
    (h5 : ∀ pg ∈ s'.pages, pg.fonts = [] ∨ ∃ pg' ∈ s.pages, pg.fonts = pg'.fonts) : DInv E past p s' := by
  refine ⟨h1 ▸ h.fonts, h3.1, ?_, h2 ▸ h.keys, h2 ▸ h.ids, ?_, ?_⟩
  · rw [h1, h2]
    intro k ref id hm
    obtain ⟨a, f, b, c, d⟩ := h.used k ref id hm
    exact ⟨a, f, b, c, d.grows h3⟩
  · rw [h2]
    intro id d hd hf
    exact h.objs id d (h4 id d hd hf) hf
  · rw [h2]
    intro pg hpg ref id hd
    rcases h5 pg hpg with he | ⟨pg', hp', he⟩
    · rw [he] at hd; simp [dget] at hd
    · rw [he] at hd
      exact h.pages pg' hp' ref id hd

theorem DInv.keeps {E : PdfEnv} {past : List TextOp} {p p' : FProc} {s : PdfT} (h : DInv E past p s) {fs : Fonts}
    (hf : FontInv E.files past p' fs) (hk : Keeps p p' s.fonts fs) : DInv E past p' { s with fonts := fs } := by
  refine ⟨hf, h.wf, ?_, h.keys, h.ids, h.objs, h.pages⟩
  intro k ref id hm
  obtain ⟨a, f, b, c, d⟩ := h.used k ref id hm
  exact ⟨a.keeps hk.1, f, hk.2 k f a b, c, d⟩

/-- what stays when fonts are added -/
structure Extends (s s' : PdfT) : Prop where
  used : ∀ x ∈ s.used, x ∈ s'.used
  grows : Grows s.base s'.base
  pages : s'.pages.length = s.pages.length
  fonts : ∀ (i : Nat) (pg : Page) (ref : Str) (id : Nat), s.pages[i]? = some pg → dget ref pg.fonts = some id → ∃ pg' : Page, s'.pages[i]? = some pg' ∧ dget ref pg'.fonts = some id
  index : s'.pageIndex = s.pageIndex

theorem Extends.refl {s : PdfT} (h : s.base.Wf) : Extends s s :=
  ⟨fun _ h => h, ⟨h, le_refl _, fun _ _ h => h⟩, rfl, fun _ pg _ _ h h' => ⟨pg, h, h'⟩, rfl⟩

theorem Extends.trans {a b c : PdfT} (h : Extends a b) (h' : Extends b c) : Extends a c := by
  refine ⟨fun x hx => h'.used x (h.used x hx), h.grows.trans h'.grows, h'.pages.trans h.pages, ?_, h'.index.trans h.index⟩
  intro i pg ref id h1 h2
  obtain ⟨pg', h1, h2⟩ := h.fonts i pg ref id h1 h2
  exact h'.fonts i pg' ref id h1 h2

theorem mem_used_unique {E : PdfEnv} {past : List TextOp} {p : FProc} {s : PdfT} (h : DInv E past p s) {k k' : FKey} {ref : Str}
    {id id' : Nat} (h1 : (k, ref, id) ∈ s.used) (h2 : (k', ref, id') ∈ s.used) : k = k' ∧ id = id' := by
  obtain ⟨a, f, b, c, d⟩ := h.used _ _ _ h1
  obtain ⟨a', f', b', c', d'⟩ := h.used _ _ _ h2
  have hk : k = k' := h.fonts.inj k k' f f' a a' b b' (c.trans c'.symm)
  subst hk
  have e1 := dget_of_mem h.keys h1
  have e2 := dget_of_mem h.keys h2
  rw [e1] at e2
  exact ⟨rfl, by simpa using e2⟩

theorem DInv.addOrGet {E : PdfEnv} (hE : E.Ok) {past : List TextOp} {p p' : FProc} {s s' : PdfT} (h : DInv E past p s)
    {k : FKey} (hk : isStandard k.1 = true → ∃ g, s.fonts.at k = some g) {r : Str × Nat}
    (hg : s.addOrGetFont E p k = .ok (r, p', s')) :
    DInv E past p' s' ∧ Keeps p p' s.fonts s'.fonts ∧ Extends s s' ∧ (k, r) ∈ s'.used ∧ s'.pages = s.pages := by
  unfold PdfT.addOrGetFont at hg
  cases hu : dget k s.used with
  | some r0 =>
    rw [hu] at hg
    cases hg
    exact ⟨h, Keeps.refl _ _, Extends.refl h.wf, dget_mem hu, rfl⟩
  | none =>
    rw [hu] at hg
    simp only at hg
    cases h1 : s.fonts.getFont E.files p k with
    | error e => rw [h1] at hg; cases hg
    | ok q =>
      obtain ⟨f, p1, fs⟩ := q
      rw [h1] at hg
      simp only at hg
      cases h2 : addFontObj E.num E.files s.base f with
      | error e => rw [h2] at hg; cases hg
      | ok q =>
        obtain ⟨id, b⟩ := q
        rw [h2] at hg
        cases hg
        obtain ⟨a1, a2, a3, a4⟩ := h.fonts.getFont hk h1
        obtain ⟨b1, b2, b3, b4⟩ := addFontObj_spec h.wf hE h2
        rw [dset_of_none hu]
        refine ⟨⟨a1, b1.1, ?_, ?_, ?_, ?_, ?_⟩, a2, ⟨?_, b1, rfl, fun _ pg _ _ h h' => ⟨pg, h, h'⟩, rfl⟩, by simp, rfl⟩
        · intro k' ref' id' hm
          simp only [List.mem_append, List.mem_singleton, Prod.mk.injEq] at hm
          rcases hm with hm | ⟨rfl, rfl, rfl⟩
          · obtain ⟨c1, g, c2, c3, c4⟩ := h.used _ _ _ hm
            exact ⟨c1.keeps a2.1, g, a2.2 _ _ c1 c2, c3, c4.grows b1⟩
          · exact ⟨a4, f, a3, rfl, b3⟩
        · rw [List.map_append, List.nodup_append]
          refine ⟨h.keys, by simp, ?_⟩
          intro x hx y hy
          simp only [List.map_cons, List.map_nil, List.mem_singleton] at hy
          subst hy
          rintro rfl
          exact dget_eq_none.1 hu hx
        · have old : ∀ k' ref' id', (k', ref', id') ∈ s.used → id' < s.base.count := by
            intro k' ref' id' hm
            obtain ⟨_, g, _, _, d, hd, _⟩ := h.used _ _ _ hm
            exact (dictAt_lt h.wf hd).2
          intro k1 r1 k2 r2 i m1 m2
          simp only [List.mem_append, List.mem_singleton, Prod.mk.injEq] at m1 m2
          rcases m1 with m1 | ⟨e1, _, e3⟩ <;> rcases m2 with m2 | ⟨f1, _, f3⟩
          · exact h.ids _ _ _ _ _ m1 m2
          · have := old _ _ _ m1; omega
          · have := old _ _ _ m2; omega
          · exact e1.trans f1.symm
        · intro i d hd hfd
          rcases b4 i d hd hfd with rfl | hi
          · exact ⟨k, f.ref, by simp⟩
          · obtain ⟨k', r', hm⟩ := h.objs i d hi hfd
            exact ⟨k', r', List.mem_append_left _ hm⟩
        · intro pg hpg ref i hd
          obtain ⟨k', hm⟩ := h.pages pg hpg ref i hd
          exact ⟨k', List.mem_append_left _ hm⟩
        · intro x hx
          exact List.mem_append_left _ hx

theorem DInv.usedFont {E : PdfEnv} (hE : E.Ok) {past : List TextOp} {p p' : FProc} {s s' : PdfT} (h : DInv E past p s)
    {k : FKey} (hk : isStandard k.1 = true → ∃ g, s.fonts.at k = some g) (hg : s.usedFont E p k = .ok (p', s')) :
    DInv E past p' s' ∧ Keeps p p' s.fonts s'.fonts ∧ Extends s s' ∧
      ∃ ref id pg, (k, ref, id) ∈ s'.used ∧ s'.pages[s.pageIndex]? = some pg ∧ dget ref pg.fonts = some id := by
  unfold PdfT.usedFont at hg
  cases h1 : s.addOrGetFont E p k with
  | error e => rw [h1] at hg; cases hg
  | ok q =>
    obtain ⟨r, p1, s1⟩ := q
    rw [h1] at hg
    simp only at hg
    obtain ⟨a1, a2, a3, a4, a5⟩ := h.addOrGet hE hk h1
    cases h2 : s1.pages[s1.pageIndex]? with
    | none => rw [h2] at hg; cases hg
    | some pg =>
      rw [h2] at hg
      cases hg
      obtain ⟨ref, id⟩ := r
      refine ⟨⟨a1.fonts, a1.wf, a1.used, a1.keys, a1.ids, a1.objs, ?_⟩, a2, ⟨a3.used, a3.grows, ?_, ?_, a3.index⟩, ref, id, pg.addFont ref id, a4, ?_, ?_⟩
      · intro q hq ref' id' hd
        simp only [PdfT.onPage] at hq
        obtain ⟨i, hi⟩ := List.mem_iff_getElem?.1 hq
        rw [List.getElem?_modify] at hi
        obtain ⟨q0, hq0, he⟩ := Option.map_eq_some_iff.1 hi
        by_cases hii : s1.pageIndex = i
        · rw [if_pos hii] at he
          subst he
          simp only [Page.addFont, dget_dset] at hd
          split at hd
          · rename_i hr
            cases hd; subst hr
            exact ⟨k, a4⟩
          · exact a1.pages q0 (List.mem_of_getElem? hq0) _ _ hd
        · rw [if_neg hii] at he
          subst he
          exact a1.pages _ (List.mem_of_getElem? hq0) _ _ hd
      · simp [PdfT.onPage, a3.pages]
      · intro i q ref' id' hq hd
        obtain ⟨q1, hq1, hd1⟩ := a3.fonts i q ref' id' hq hd
        simp only [PdfT.onPage, List.getElem?_modify, hq1]
        refine ⟨_, rfl, ?_⟩
        beta_reduce
        by_cases hii : s1.pageIndex = i
        · rw [if_pos hii]
          simp only [Page.addFont, dget_dset]
          split
          · rename_i hr
            subst hr
            obtain ⟨k', hm⟩ := a1.pages q1 (List.mem_of_getElem? hq1) _ _ hd1
            rw [(mem_used_unique a1 hm a4).2]
          · exact hd1
        · rw [if_neg hii]; exact hd1
      · simp only [PdfT.onPage, List.getElem?_modify]
        rw [a3.index] at h2 ⊢
        rw [h2]
        simp
      · simp [Page.addFont]

theorem DInv.usedFonts {E : PdfEnv} (hE : E.Ok) {past : List TextOp} (l : List FKey) {p p' : FProc} {s s' : PdfT} (h : DInv E past p s)
    (hk : ∀ k ∈ l, Owned p k ∧ ∃ g, s.fonts.at k = some g) (hg : s.usedFonts E l p = .ok (p', s')) :
    DInv E past p' s' ∧ Keeps p p' s.fonts s'.fonts ∧ Extends s s' ∧
      ∀ k ∈ l, ∃ ref id pg, (k, ref, id) ∈ s'.used ∧ s'.pages[s.pageIndex]? = some pg ∧ dget ref pg.fonts = some id := by
  induction l generalizing p s with
  | nil =>
    simp only [PdfT.usedFonts] at hg
    cases hg
    exact ⟨h, Keeps.refl _ _, Extends.refl h.wf, by simp⟩
  | cons k l ih =>
    simp only [PdfT.usedFonts] at hg
    cases h1 : s.usedFont E p k with
    | error e => rw [h1] at hg; cases hg
    | ok q =>
      obtain ⟨p1, s1⟩ := q
      rw [h1] at hg
      simp only at hg
      obtain ⟨a1, a2, a3, ref, id, pg, a4, a5, a6⟩ := h.usedFont hE (fun _ => (hk k (by simp)).2) h1
      obtain ⟨b1, b2, b3, b4⟩ := ih a1 (fun k' hk' => by
        obtain ⟨o, g, hg⟩ := hk k' (by simp [hk'])
        exact ⟨o.keeps a2.1, g, a2.2 _ _ o hg⟩) hg
      refine ⟨b1, a2.trans b2, a3.trans b3, ?_⟩
      intro k' hk'
      rcases List.mem_cons.1 hk' with rfl | hk'
      · obtain ⟨pg', c1, c2⟩ := b3.fonts _ _ _ _ a5 a6
        exact ⟨ref, id, pg', b3.used _ a4, c1, c2⟩
      · rw [← a3.index]
        exact b4 k' hk'

/-- a change of the current page that leaves its fonts alone -/
theorem onPage_fonts {s : PdfT} {f : Page → Page} (hf : ∀ p, (f p).fonts = p.fonts) {i : Nat} {pg : Page}
    (h : s.pages[i]? = some pg) : ∃ pg', (s.onPage f).pages[i]? = some pg' ∧ pg'.fonts = pg.fonts := by
  simp only [PdfT.onPage, List.getElem?_modify, h]
  refine ⟨_, rfl, ?_⟩
  split
  · exact hf pg
  · rfl

theorem onPage_fonts_mem {s : PdfT} {f : Page → Page} (hf : ∀ p, (f p).fonts = p.fonts) :
    ∀ pg ∈ (s.onPage f).pages, ∃ pg' ∈ s.pages, pg.fonts = pg'.fonts := by
  intro pg hpg
  simp only [PdfT.onPage] at hpg
  obtain ⟨i, hi⟩ := List.mem_iff_getElem?.1 hpg
  rw [List.getElem?_modify] at hi
  obtain ⟨q0, hq0, he⟩ := Option.map_eq_some_iff.1 hi
  refine ⟨q0, List.mem_of_getElem? hq0, ?_⟩
  subst he
  split
  · exact hf q0
  · rfl

/-- steps that do not concern fonts -/
structure Aside (s s' : PdfT) : Prop where
  fonts : s'.fonts = s.fonts
  used : s'.used = s.used
  grows : Grows s.base s'.base
  objs : ∀ id d, s'.base.dictAt id = some d → isFontDict d → s.base.dictAt id = some d
  mem : ∀ pg ∈ s'.pages, pg.fonts = [] ∨ ∃ pg' ∈ s.pages, pg.fonts = pg'.fonts
  at_ : ∀ (i : Nat) (pg : Page), s.pages[i]? = some pg → ∃ pg' : Page, s'.pages[i]? = some pg' ∧ pg'.fonts = pg.fonts

theorem Aside.refl {s : PdfT} (h : s.base.Wf) : Aside s s :=
  ⟨rfl, rfl, ⟨h, le_refl _, fun _ _ h => h⟩, fun _ _ h _ => h, fun pg h => Or.inr ⟨pg, h, rfl⟩, fun _ pg h => ⟨pg, h, rfl⟩⟩

theorem Aside.trans {a b c : PdfT} (h : Aside a b) (h' : Aside b c) : Aside a c := by
  refine ⟨h'.fonts.trans h.fonts, h'.used.trans h.used, h.grows.trans h'.grows, fun id d hd hf => h.objs id d (h'.objs id d hd hf) hf, ?_, ?_⟩
  · intro pg hpg
    rcases h'.mem pg hpg with he | ⟨q, hq, he⟩
    · exact Or.inl he
    · rcases h.mem q hq with he' | ⟨q', hq', he'⟩
      · exact Or.inl (he.trans he')
      · exact Or.inr ⟨q', hq', he.trans he'⟩
  · intro i pg hpg
    obtain ⟨q, h1, h2⟩ := h.at_ i pg hpg
    obtain ⟨q', h3, h4⟩ := h'.at_ i q h1
    exact ⟨q', h3, h4.trans h2⟩

theorem Aside.onPage {s : PdfT} (h : s.base.Wf) {f : Page → Page} (hf : ∀ p, (f p).fonts = p.fonts) : Aside s (s.onPage f) :=
  ⟨rfl, rfl, ⟨h, le_refl _, fun _ _ h => h⟩, fun _ _ h _ => h, fun pg hpg => Or.inr (onPage_fonts_mem hf pg hpg),
    fun _ _ h => onPage_fonts hf h⟩

theorem Aside.addObj {s : PdfT} (h : s.base.Wf) {d : List (Key × Obj)} (hd : ¬ isFontDict d) {s' : PdfT}
    (h1 : s'.fonts = s.fonts) (h2 : s'.used = s.used) (h3 : s'.base = (s.base.addDict d).2) (h4 : s'.pages = s.pages) : Aside s s' := by
  refine ⟨h1, h2, h3 ▸ Grows.add h d, ?_, by rw [h4]; exact fun pg h => Or.inr ⟨pg, h, rfl⟩, by rw [h4]; exact fun _ pg h => ⟨pg, h, rfl⟩⟩
  intro id d' hd' hf
  rw [h3] at hd'
  rcases font_dicts_add h _ hd' with ⟨_, rfl⟩ | hi
  · exact absurd hf hd
  · exact hi

theorem Aside.dinv {E : PdfEnv} {past : List TextOp} {p : FProc} {s s' : PdfT} (ha : Aside s s') (h : DInv E past p s) : DInv E past p s' :=
  h.other ha.fonts ha.used ha.grows ha.objs ha.mem

theorem foldl_annot_fonts {α : Type} (g : α → Annot) (l : List α) (p : Page) :
    (l.foldl (fun p r => p.addAnnot (g r)) p).fonts = p.fonts := by
  induction l generalizing p with
  | nil => rfl
  | cons a l ih => simpa [Page.addAnnot] using ih (p.addAnnot (g a))

theorem uriId_aside {s : PdfT} (h : s.base.Wf) (link : Str) : Aside s (s.uriId link).2 ∧ (s.uriId link).2.pageIndex = s.pageIndex := by
  unfold PdfT.uriId
  cases hu : dget link s.uris with
  | some i => exact ⟨Aside.refl h, rfl⟩
  | none =>
    refine ⟨Aside.addObj h (d := [(kType, .bytes b!"/Action"), (.str c!"S", .bytes b!"/URI"), (.str c!"URI", .str link)]) ?_ rfl rfl rfl rfl, rfl⟩
    simp [isFontDict, dget, kType, kSubtype]

theorem addId_aside {E : PdfEnv} {s s' : PdfT} (h : s.base.Wf) {page : Page} {x y : Rat} {id : Str} {rects : List IdRect}
    (hg : s.addId E page x y id rects = .ok s') : Aside s s' ∧ s'.pageIndex = s.pageIndex := by
  unfold PdfT.addId at hg
  split at hg
  · cases hg; exact ⟨Aside.refl h, rfl⟩
  · split at hg
    · unfold PdfT.addLabel at hg
      split at hg
      · cases hg
      · cases hg
        exact ⟨⟨rfl, rfl, ⟨h, le_refl _, fun _ _ h => h⟩, fun _ _ h _ => h, fun pg h => Or.inr ⟨pg, h, rfl⟩, fun _ pg h => ⟨pg, h, rfl⟩⟩, rfl⟩
    · split at hg
      · cases hg
        exact ⟨Aside.onPage h fun p => foldl_annot_fonts _ _ p, rfl⟩
      · split at hg
        · cases hg
          obtain ⟨a, b⟩ := uriId_aside h _
          exact ⟨a.trans (Aside.onPage a.grows.1 fun p => foldl_annot_fonts _ _ p), b⟩
        · split at hg
          · unfold PdfT.addOutline at hg
            split at hg
            · cases hg
            · split at hg
              · cases hg
              · cases hg
                exact ⟨⟨rfl, rfl, ⟨h, le_refl _, fun _ _ h => h⟩, fun _ _ h _ => h, fun pg h => Or.inr ⟨pg, h, rfl⟩, fun _ pg h => ⟨pg, h, rfl⟩⟩, rfl⟩
          · cases hg; exact ⟨Aside.refl h, rfl⟩

theorem addIds_aside {E : PdfEnv} {page : Page} {x y : Rat} (l : List (Str × List IdRect)) {s s' : PdfT} (h : s.base.Wf)
    (hg : s.addIds E page x y l = .ok s') : Aside s s' ∧ s'.pageIndex = s.pageIndex := by
  induction l generalizing s with
  | nil => simp only [PdfT.addIds] at hg; cases hg; exact ⟨Aside.refl h, rfl⟩
  | cons a l ih =>
    obtain ⟨id, rects⟩ := a
    simp only [PdfT.addIds] at hg
    cases h1 : s.addId E page x y id rects with
    | error e => rw [h1] at hg; cases hg
    | ok s1 =>
      rw [h1] at hg
      obtain ⟨a1, a2⟩ := addId_aside h h1
      obtain ⟨b1, b2⟩ := ih a1.grows.1 hg
      exact ⟨a1.trans b1, b2.trans a2⟩

theorem movePage_fonts (move : Str) (w h : Rat) (p : Page) : (movePage move w h p).fonts = p.fonts := by
  unfold movePage
  simp only
  split <;> split <;> rfl

theorem DInv.addText {E : PdfEnv} (hE : E.Ok) {F : NumFmt} {past : List TextOp} {p p' : FProc} {s s' : PdfT} (h : DInv E past p s)
    {x y width height : Rat} {text graphics : Str} {used : List FKey} {ids : List (Str × List IdRect)} {move : Str}
    (hk : ∀ k ∈ used, Owned p k ∧ ∃ g, s.fonts.at k = some g)
    (hg : s.addText E F p x y width height text graphics used ids move = .ok (p', s')) :
    DInv E past p' s' ∧ Keeps p p' s.fonts s'.fonts ∧ Extends s s' ∧
      ∀ k ∈ used, ∃ ref id pg, (k, ref, id) ∈ s'.used ∧ s'.pages[s.pageIndex]? = some pg ∧ dget ref pg.fonts = some id := by
  unfold PdfT.addText at hg
  cases h1 : s.pages[s.pageIndex]? with
  | none => rw [h1] at hg; cases hg
  | some page =>
    rw [h1] at hg
    simp only at hg
    cases h2 : page.addStr (paragraphStream F x y text graphics) with
    | error e => rw [h2] at hg; cases hg
    | ok q =>
      obtain ⟨n, page'⟩ := q
      rw [h2] at hg
      simp only at hg
      have hpf : page'.fonts = page.fonts := by
        unfold Page.addStr at h2
        split at h2
        · cases h2; rfl
        · cases h2
      -- the page is replaced by itself with a longer stream
      have a0 : Aside s (s.onPage fun _ => page') := by
        refine ⟨rfl, rfl, ⟨h.wf, le_refl _, fun _ _ h => h⟩, fun _ _ h _ => h, ?_, ?_⟩
        · intro pg hpg
          simp only [PdfT.onPage] at hpg
          obtain ⟨i, hi⟩ := List.mem_iff_getElem?.1 hpg
          rw [List.getElem?_modify] at hi
          obtain ⟨q0, hq0, he⟩ := Option.map_eq_some_iff.1 hi
          by_cases hii : s.pageIndex = i
          · rw [if_pos hii] at he
            subst hii
            rw [h1] at hq0
            cases hq0
            exact Or.inr ⟨page, List.mem_of_getElem? h1, by rw [← he, hpf]⟩
          · rw [if_neg hii] at he
            exact Or.inr ⟨q0, List.mem_of_getElem? hq0, by rw [← he]⟩
        · intro i pg hpg
          simp only [PdfT.onPage, List.getElem?_modify, hpg]
          refine ⟨_, rfl, ?_⟩
          beta_reduce
          by_cases hii : s.pageIndex = i
          · subst hii
            rw [h1] at hpg
            cases hpg
            simp [hpf]
          · rw [if_neg hii]
      cases h3 : (s.onPage fun _ => page').usedFonts E used p with
      | error e => rw [h3] at hg; cases hg
      | ok q =>
        obtain ⟨p1, s1⟩ := q
        rw [h3] at hg
        simp only at hg
        obtain ⟨b1, b2, b3, b4⟩ := (a0.dinv h).usedFonts hE used hk h3
        cases h4 : s1.addIds E page x y ids with
        | error e => rw [h4] at hg; cases hg
        | ok s2 =>
          rw [h4] at hg
          cases hg
          obtain ⟨c1, c2⟩ := addIds_aside ids b1.wf h4
          have c3 : Aside s1 (s2.onPage (movePage move width height)) :=
            c1.trans (Aside.onPage c1.grows.1 (movePage_fonts move width height))
          refine ⟨c3.dinv b1, ?_, ⟨?_, ?_, ?_, ?_, ?_⟩, ?_⟩
          · rw [c3.fonts]; exact b2
          · rw [c3.used]; exact b3.used
          · exact a0.grows.trans (b3.grows.trans c3.grows)
          · have l1 : s2.pages.length = s1.pages.length := by
              have key : ∀ (l : List (Str × List IdRect)) (s s' : PdfT), s.addIds E page x y l = .ok s' → s'.pages.length = s.pages.length := by
                intro l
                induction l with
                | nil => intro s s' hg; simp only [PdfT.addIds] at hg; cases hg; rfl
                | cons a l ih =>
                  intro s s' hg
                  obtain ⟨id, rects⟩ := a
                  simp only [PdfT.addIds] at hg
                  cases h1 : s.addId E page x y id rects with
                  | error e => rw [h1] at hg; cases hg
                  | ok s1 =>
                    rw [h1] at hg
                    refine (ih _ _ hg).trans ?_
                    unfold PdfT.addId at h1
                    split at h1
                    · cases h1; rfl
                    · split at h1
                      · unfold PdfT.addLabel at h1
                        split at h1 <;> cases h1
                        rfl
                      · split at h1
                        · cases h1; simp [PdfT.addRefs, PdfT.onPage]
                        · split at h1
                          · cases h1
                            unfold PdfT.addUris PdfT.uriId
                            cases dget _ s.uris <;> simp [PdfT.onPage]
                          · split at h1
                            · unfold PdfT.addOutline at h1
                              split at h1
                              · cases h1
                              · split at h1 <;> cases h1
                                rfl
                            · cases h1; rfl
              exact key _ _ _ h4
            have l2 := b3.pages
            simp only [PdfT.onPage, List.length_modify] at l2 ⊢
            omega
          · intro i pg ref id hpg hd
            obtain ⟨q1, e1, e2⟩ := a0.at_ i pg hpg
            obtain ⟨q2, e3, e4⟩ := b3.fonts i q1 ref id e1 (by rw [e2]; exact hd)
            obtain ⟨q3, e5, e6⟩ := c3.at_ i q2 e3
            exact ⟨q3, e5, by rw [e6]; exact e4⟩
          · show s2.pageIndex = _
            rw [c2, b3.index]
            rfl
          · intro k hk'
            obtain ⟨ref, id, pg, d1, d2, d3⟩ := b4 k hk'
            obtain ⟨q3, e5, e6⟩ := c3.at_ _ pg d2
            exact ⟨ref, id, q3, by rw [c3.used]; exact d1, e5, by rw [e6]; exact d3⟩

/-! ### Histories -/

/-- the state of a history -/
structure DocInv (E : PdfEnv) (past : List TextOp) (w : DWorld) : Prop where
  doc : DInv E past w.proc w.doc
  shown : ∀ i k ref, (i, k, ref) ∈ w.shown → ∃ id pg, (k, ref, id) ∈ w.doc.used ∧ w.doc.pages[i]? = some pg ∧ dget ref pg.fonts = some id

theorem DInv.mono {E : PdfEnv} {past past' : List TextOp} {p : FProc} {s : PdfT} (h : DInv E past p s) (hs : ∀ o ∈ past, o ∈ past') :
    DInv E past' p s := ⟨h.fonts.mono hs, h.wf, h.used, h.keys, h.ids, h.objs, h.pages⟩

theorem DocInv.op {E : PdfEnv} (hE : E.Ok) {F : NumFmt} {past : List TextOp} {w w' : DWorld} (h : DocInv E past w) (o : TextOp)
    (ho : ∀ d, o = .addObject d → ¬ isFontDict d) (hg : w.op E F o = .ok w') : DocInv E (past ++ [o]) w' := by
  have h' : DocInv E (past ++ [o]) w := ⟨h.doc.mono (fun x hx => List.mem_append_left _ hx), h.shown⟩
  cases o with
  | register k path =>
    simp only [DWorld.op] at hg
    cases hg
    refine ⟨⟨h.doc.fonts.register k path, h.doc.wf, ?_, h.doc.keys, h.doc.ids, h.doc.objs, h.doc.pages⟩, h.shown⟩
    exact h.doc.used
  | newPage a b c d e f =>
    simp only [DWorld.op] at hg
    cases hg
    have hw := h'.doc.wf
    refine ⟨h'.doc.other rfl rfl ((Grows.add hw _).trans (Grows.add (hw.addDict _) _)) ?_ ?_, ?_⟩
    · intro id d hd hf
      rcases font_dicts_add (hw.addDict _) _ hd with ⟨_, rfl⟩ | hd
      · simp [isFontDict, dget, kType, kSubtype, kContents, kResources] at hf
      rcases font_dicts_add hw _ hd with ⟨_, rfl⟩ | hd
      · simp [isFontDict, dget, kFilter, kStream, kSubtype] at hf
      · exact hd
    · intro pg hpg
      simp only [PdfT.addPage, List.mem_append, List.mem_singleton] at hpg
      rcases hpg with hpg | rfl
      · exact Or.inr ⟨pg, hpg, rfl⟩
      · exact Or.inl rfl
    · intro i k ref hm
      obtain ⟨id, pg, e1, e2, e3⟩ := h'.shown i k ref hm
      refine ⟨id, pg, e1, ?_, e3⟩
      simp only [PdfT.addPage]
      rw [List.getElem?_append_left (List.getElem?_eq_some_iff.1 e2).1]
      exact e2
  | goto i =>
    simp only [DWorld.op] at hg
    split at hg
    · cases hg
      exact ⟨⟨h'.doc.fonts, h'.doc.wf, h'.doc.used, h'.doc.keys, h'.doc.ids, h'.doc.objs, h'.doc.pages⟩, h'.shown⟩
    · cases hg
  | addObject d =>
    simp only [DWorld.op] at hg
    cases hg
    have ha : Aside w.doc { w.doc with base := (w.doc.base.addDict d).2 } := Aside.addObj h'.doc.wf (ho d rfl) rfl rfl rfl rfl
    exact ⟨ha.dinv h'.doc, h'.shown⟩
  | text styles used x y width height text graphics ids move =>
    simp only [DWorld.op] at hg
    cases h1 : styleFonts E.files styles w.proc w.doc.fonts with
    | error e => rw [h1] at hg; cases hg
    | ok r =>
      obtain ⟨kfs, p, s⟩ := r
      rw [h1] at hg
      simp only at hg
      split at hg
      · rename_i hc
        obtain ⟨a1, a2, a3⟩ := h'.doc.fonts.styleFonts styles h1
        have d1 : DInv E (past ++ [TextOp.text styles used x y width height text graphics ids move]) p { w.doc with fonts := s } := h'.doc.keeps a1 a2
        cases h2 : ({ w.doc with fonts := s } : PdfT).addText E F p x y width height text graphics used ids move with
        | error e => rw [h2] at hg; cases hg
        | ok r =>
          obtain ⟨p', doc⟩ := r
          rw [h2] at hg
          cases hg
          obtain ⟨b1, b2, b3, b4⟩ := d1.addText hE (by
            intro k hk
            obtain ⟨kf, hkf, rfl⟩ := List.mem_map.1 (hc.2 k hk)
            obtain ⟨e1, e2⟩ := a3 kf hkf
            exact ⟨e2, kf.2, e1⟩) h2
          refine ⟨b1, ?_⟩
          intro i k ref hm
          simp only [List.mem_append, List.mem_map, Prod.mk.injEq] at hm
          rcases hm with hm | ⟨kf, hkf, rfl, rfl, rfl⟩
          · obtain ⟨id, pg, e1, e2, e3⟩ := h'.shown i k ref hm
            obtain ⟨pg', e4, e5⟩ := b3.fonts i pg ref id e2 e3
            exact ⟨id, pg', b3.used _ e1, e4, e5⟩
          · obtain ⟨ref', id, pg, e1, e2, e3⟩ := b4 kf.1 (hc.1 kf hkf)
            obtain ⟨_, g, f1, f2, _⟩ := b1.used _ _ _ e1
            obtain ⟨c1, c2⟩ := a3 kf hkf
            have := b2.2 _ _ c2 c1
            rw [f1] at this
            cases this
            rw [f2]
            exact ⟨id, pg, e1, e2, e3⟩
      · cases hg

theorem DocInv.run {E : PdfEnv} (hE : E.Ok) {F : NumFmt} (ops : List TextOp) {past : List TextOp} {w w' : DWorld} (h : DocInv E past w)
    (ho : ∀ d, TextOp.addObject d ∈ ops → ¬ isFontDict d) (hg : w.run E F ops = .ok w') : DocInv E (past ++ ops) w' := by
  induction ops generalizing past w with
  | nil => simp only [DWorld.run] at hg; cases hg; simpa using h
  | cons o ops ih =>
    simp only [DWorld.run] at hg
    cases h1 : w.op E F o with
    | error e => rw [h1] at hg; cases hg
    | ok w1 =>
      rw [h1] at hg
      have := ih (h.op hE o (fun d hd => ho d (hd ▸ List.mem_cons_self)) h1) (fun d hd => ho d (List.mem_cons_of_mem _ hd)) hg
      simpa using this

theorem DocInv.start {E : PdfEnv} (hE : E.Ok) {version : Str} {w : DWorld} (h : DWorld.start E version = .ok w) : DocInv E [] w := by
  unfold DWorld.start PdfT.new at h
  have h0 : DInv E [] ⟨[], []⟩ (PdfT.init version) := by
    have hw : (Base.new version []).Wf := by simp [Base.Wf, Base.new]
    have hd : ∀ id d, (PdfT.init version).base.dictAt id = some d → d = [(kType, .bytes b!"/Catalog")] := by
      intro id d hd
      have hd' : ((Base.new version []).addDict [(kType, .bytes b!"/Catalog")]).2.dictAt id = some d := hd
      rcases font_dicts_add hw _ hd' with ⟨_, rfl⟩ | hd'
      · rfl
      · cases id <;> simp [Base.dictAt, Base.new] at hd'
    refine ⟨FontInv.new _, hw.addDict _, by simp [PdfT.init], by simp [PdfT.init], by simp [PdfT.init], ?_, by simp [PdfT.init]⟩
    intro id d h1 h2
    have := hd id d h1
    subst this
    simp [isFontDict, dget, kType, kSubtype] at h2
  cases h1 : (PdfT.init version).addOrGetFont E ⟨[], []⟩ (c!"Helvetica", c!"n") with
  | error e => rw [h1] at h; cases h
  | ok r =>
    obtain ⟨r, p, s⟩ := r
    rw [h1] at h
    cases h
    obtain ⟨a1, _, _, _, _⟩ := h0.addOrGet hE (by
      intro _
      exact ⟨⟨c!"F1", .std c!"Helvetica"⟩, (by decide +kernel : Fonts.new.at (c!"Helvetica", c!"n") = _)⟩) h1
    exact ⟨a1, by simp⟩


/-- C42, for documents alone in their process: after any history there is a list of the fonts of the
document (font, name, object), each font, each name and each object being in it once, whose objects are all
the font dictionaries of the document, every one of them describing the font asked for; every font
text was shown with is in the list, and is a resource of the page under the name in the stream. Missing:
replaced fonts (`C42_replaced_font_false`), fonts loaded by other documents (`C43_second_document_false`),
and paragraphs that report too few fonts (`C42_bullet_false`). -/
theorem C42_fonts_partial (E : PdfEnv) (hE : E.Ok) (F : NumFmt) (version : Str) (ops : List TextOp)
    (ho : ∀ d, TextOp.addObject d ∈ ops → ¬ isFontDict d) (w0 w : DWorld) (h0 : DWorld.start E version = .ok w0)
    (h : w0.run E F ops = .ok w) :
    ∃ own : List (FKey × Str × Nat),
      (own.map (·.1)).Nodup ∧ (own.map (·.2.1)).Nodup ∧ (own.map (·.2.2)).Nodup ∧
      (∀ id, (∃ d, w.doc.base.dictAt id = some d ∧ isFontDict d) ↔ ∃ k ref, (k, ref, id) ∈ own) ∧
      (∀ k ref id, (k, ref, id) ∈ own → ∃ face, FaceFor E.files ops k face ∧ FontObj E.files w.doc.base id face) ∧
      (∀ i k ref, (i, k, ref) ∈ w.shown → ∃ id pg, (k, ref, id) ∈ own ∧ w.doc.pages[i]? = some pg ∧ dget ref pg.fonts = some id) ∧
      (∀ pg ∈ w.doc.pages, ∀ ref id, dget ref pg.fonts = some id → ∃ k, (k, ref, id) ∈ own) := by
  have inv : DocInv E ops w := by simpa using (DocInv.start hE h0).run hE ops ho h
  have hd := inv.doc
  refine ⟨w.doc.used, hd.keys, ?_, ?_, ?_, ?_, inv.shown, hd.pages⟩
  · refine List.pairwise_map.2 ((List.pairwise_map.1 hd.keys).imp_of_mem ?_)
    intro a b ha hb hne he
    obtain ⟨k, ref, id⟩ := a
    obtain ⟨k', ref', id'⟩ := b
    simp only at he
    subst he
    exact hne (mem_used_unique hd ha hb).1
  · refine List.pairwise_map.2 ((List.pairwise_map.1 hd.keys).imp_of_mem ?_)
    intro a b ha hb hne he
    obtain ⟨k, ref, id⟩ := a
    obtain ⟨k', ref', id'⟩ := b
    simp only at he
    subst he
    exact hne (hd.ids _ _ _ _ _ ha hb)
  · intro id
    constructor
    · rintro ⟨d, h1, h2⟩
      exact hd.objs id d h1 h2
    · rintro ⟨k, ref, hm⟩
      obtain ⟨_, f, _, _, d, h1, h2, _⟩ := hd.used _ _ _ hm
      exact ⟨d, h1, h2⟩
  · intro k ref id hm
    obtain ⟨a, f, b, _, d⟩ := hd.used _ _ _ hm
    exact ⟨f.face, hd.fonts.face k f a b, d⟩

theorem forall2_exists_right {α β : Type} {R : α → β → Prop} : ∀ {l : List α} {m : List β}, List.Forall₂ R l m →
    ∀ {b}, b ∈ m → ∃ a ∈ l, R a b := by
  intro l m h
  induction h with
  | nil => intro b hb; simp at hb
  | cons h _ ih =>
    intro b hb
    rcases List.mem_cons.1 hb with rfl | hb
    · exact ⟨_, by simp, h⟩
    · obtain ⟨a, ha, hr⟩ := ih hb
      exact ⟨a, by simp [ha], hr⟩

/-- what is shown has the states of the content or of the list -/
theorem runShown_ok {F : TFmt} {refOf : Str → Str → Str} {cfg : TCfg} {enc : Option (Str × Str)} (hs : StylesOk F refOf cfg)
    {first : Bool} {ls : List (TLine × Bool)} (hl : ∀ l ∈ ls, ∀ x ∈ looks l.1.parts, x ∈ contentLooks cfg.content)
    {sh : Shown} (h : sh ∈ runShown cfg enc first ls) : sh.1.Ok refOf := by
  unfold runShown at h
  rw [List.mem_append] at h
  rcases h with h | h
  · cases hlist : cfg.list with
    | none => rw [hlist] at h; simp at h
    | some lc =>
      rw [hlist] at h
      cases ls with
      | nil => simp at h
      | cons l ls =>
        simp only at h
        split at h
        · simp only [List.mem_singleton] at h
          subst h
          exact hs.list lc hlist
        · simp at h
  · obtain ⟨l, hl1, hl2⟩ := List.mem_flatMap.1 h
    unfold lineShown at hl2
    obtain ⟨p, hp, rfl⟩ := List.mem_map.1 hl2
    exact hs.looks _ (hl l hl1 _ (List.mem_map_of_mem (List.mem_filter.1 hp).1))

/-- C42 for the streams: when a paragraph is laid out and added to a page, everything it shows is in a font
that the resources of the page have under that name. -/
theorem C42_stream_partial (E : PdfEnv) (hE : E.Ok) (N : NumFmt) (version : Str) (ops : List TextOp)
    (ho : ∀ d, TextOp.addObject d ∈ ops → ¬ isFontDict d) (w0 w : DWorld) (h0 : DWorld.start E version = .ok w0)
    (h : w0.run E N ops = .ok w)
    (F : TFmt) (hF : F.Ok) (En : Encs) (hEn : En.Ok) (refOf : Str → Str → Str) (M : Metrics) (cfg : TCfg)
    (enc : Option (Str × Str)) (hs : StylesOk F refOf cfg) (hlt : ListTextOk cfg enc) (width height : Rat) (pos : TPos)
    (hr : TReach M cfg pos) (hfirst : cfg.list = none ∨ pos.listDone = false) (correct : Bool) (o : OutSt)
    (ht : textOut F M En cfg enc width height pos correct = .ok o) (b : Bytes) (hb : encodeLatin o.text = .ok b)
    (styles : List (Str × Bool × Bool)) (kfs : List (FKey × Font)) (p : FProc) (s : Fonts)
    (hst : styleFonts E.files styles w.proc w.doc.fonts = .ok (kfs, p, s))
    (hkf : ∀ k ∈ (textRun M cfg width height pos).used, ∃ f, (k, f) ∈ kfs ∧ f.ref = refOf k.1 k.2)
    (x y : Rat) (move : Str) (p' : FProc) (doc : PdfT)
    (hadd : ({ w.doc with fonts := s } : PdfT).addText E F.toNumFmt p x y width height o.text o.graphics
      (textRun M cfg width height pos).used o.ids move = .ok (p', doc)) :
    ∃ tops, opsOf b = some tops ∧ ∀ m : MS, m.path = [] → (∃ t, m.text = some t) → ∃ m' evs, exec m tops = some (m', evs) ∧
      ∀ e ∈ evs, ∃ gs tm mv str, e = .text gs tm mv str ∧ ∃ ref id pg face, gs.font.1 = bytesOf ref ∧
        doc.pages[w.doc.pageIndex]? = some pg ∧ dget ref pg.fonts = some id ∧ FontObj E.files doc.base id face := by
  have inv : DocInv E ops w := by simpa using (DocInv.start hE h0).run hE ops ho h
  obtain ⟨a1, a2, a3⟩ := inv.doc.fonts.styleFonts styles hst
  have hk : ∀ k ∈ (textRun M cfg width height pos).used, Owned p k ∧ ∃ g, s.at k = some g := by
    intro k hk
    obtain ⟨f, hf, _⟩ := hkf k hk
    obtain ⟨e1, e2⟩ := a3 _ hf
    exact ⟨e2, f, e1⟩
  obtain ⟨b1, b2, b3, b4⟩ := (inv.doc.keeps a1 a2).addText hE hk hadd
  obtain ⟨tops, c1, c2⟩ := C26_own_state F hF En hEn refOf M cfg enc hs hlt width height pos hr correct o ht b hb
  refine ⟨tops, c1, ?_⟩
  intro m hm hmt
  obtain ⟨m', evs, d1, d2⟩ := c2 m hm hmt
  refine ⟨m', evs, d1, ?_⟩
  intro e he
  obtain ⟨sh, hsh, gs, tm, mv, str, e1, e2, _⟩ := forall2_exists_right d2 he
  have hu := C26_used_fonts_partial M cfg enc width height pos hr hfirst F En correct o ht sh hsh
  obtain ⟨ref, id, pg, f1, f2, f3⟩ := b4 _ hu
  obtain ⟨_, f, g1, g2, g3⟩ := b1.used _ _ _ f1
  obtain ⟨f', hf', href⟩ := hkf _ hu
  obtain ⟨k1, k2⟩ := a3 _ hf'
  have := b2.2 _ _ k2 k1
  rw [g1] at this
  cases this
  refine ⟨gs, tm, mv, str, e1, ref, id, pg, f'.face, ?_, f2, f3, g3⟩
  obtain ⟨_, hp⟩ := hr.post
  have hu' := textRun_used M cfg width height pos hp.lastV
  have hok := runShown_ok hs (fun l hl x hx => (hu'.lk l hl x hx).1) hsh
  rw [e2, ← g2, href, hok.2.2.1]
  rfl

private def ex42E : PdfEnv := ⟨sampleFiles, fun x => .int x.num, fun _ => none, id⟩

theorem ex42E_ok : ex42E.Ok := by
  intro path t h
  simp only [ex42E, sampleFiles] at h
  split at h
  · cases h; rfl
  · cases h

private def ex42Ops : List TextOp :=
  [.newPage 100 100 10 10 10 10, .register (c!"Nice", c!"bi") c!"b.ttf",
   .text [(c!"Nice", true, true), (c!"Symbol", true, false)] [(c!"Symbol", c!"n"), (c!"Nice", c!"bi")] 0 0 50 10 c!" ()Tj" [] [] c!"bottom",
   .newPage 100 100 10 10 10 10,
   .text [(c!"Nice", true, true), (c!"Helvetica", true, true)] [(c!"Helvetica", c!"bi"), (c!"Nice", c!"bi")] 0 0 50 10 c!" ()Tj" []
     [(c!"$uri:a", [(1, 2, 3, 4)])] c!"bottom"]

private def ex42Res : Except PyErr (List (List (Str × Nat)) × List (Nat × Str)) :=
  match DWorld.start ex42E c!"1.5" with
  | .error e => .error e
  | .ok w => (w.run ex42E sampleFmt ex42Ops).map fun w => (w.doc.pages.map (·.fonts), w.shown.map fun x => (x.1, x.2.2))

/-- a document: the registered font is embedded once for both pages -/
example : ex42Res = .ok ([[(c!"F13", 5), (c!"F15", 10)], [(c!"F4", 13), (c!"F15", 10)]],
    [(0, c!"F15"), (0, c!"F13"), (1, c!"F15"), (1, c!"F4")]) := by decide +kernel

/-- a page; `PDF.add_font` of a file as Helvetica; a paragraph in Helvetica: the name written in its stream, and
the fonts of the pages -/
def replacedFont : Except PyErr (List Str × List (List (Str × Nat))) :=
  match DWorld.start ex42E c!"1.5" with
  | .error e => .error e
  | .ok w => match w.doc.fonts.load ex42E.files c!"n.ttf" (c!"Helvetica", c!"n") with
    | .error e => .error e
    | .ok fonts =>
      (({ w with doc := { w.doc.addPage 100 100 10 10 10 10 with fonts := fonts } } : DWorld).run ex42E sampleFmt
        [.text [(c!"Helvetica", false, false)] [(c!"Helvetica", c!"n")] 0 0 50 10 c!" /F15 10 Tf (a)Tj" [] [] c!"bottom"]).map
        fun w => (w.shown.map (·.2.2), w.doc.pages.map (·.fonts))

/-- C42 is violated when a font of a standard family is replaced: the text is written with the new name, the page
lists the old one. -/
theorem C42_replaced_font_false : replacedFont = .ok ([c!"F15"], [[(c!"F1", 2)]]) := by decide +kernel

/-- a list paragraph that did not fit at all on the page before is added to a page: its stream, and the fonts of the
page -/
def bulletPage : Except PyErr (Str × List (List (Str × Nat))) :=
  match DWorld.start ex42E c!"1.5" with
  | .error e => .error e
  | .ok w => match textOut sampleTFmt sampleM (fun _ _ => none) exBullet none 200 100 (textRun sampleM exBullet 200 5 TPos.init).pos true with
    | .error e => .error e
    | .ok o => ((w.doc.addPage 100 100 10 10 10 10).addText ex42E sampleFmt w.proc 0 0 200 100 o.text o.graphics
        (textRun sampleM exBullet 200 100 (textRun sampleM exBullet 200 5 TPos.init).pos).used o.ids c!"bottom").map
        fun r => (o.text, r.2.pages.map (·.fonts))

/-- C42 is violated for the text of a list that begins on the next page (`C26_list_font_false`): it is written
with a font that is not a resource of the page. -/
theorem C42_bullet_false : bulletPage =
    .ok (c!" 0 -11 Td /F2 10 Tf 1 g 0 Ts (1.)Tj 2 0 Td /F1 10 Tf 1 g 0 Ts 0 Tw (aa )Tj (bb)Tj", [[(c!"F1", 2)]]) := by
  decide +kernel

end Verif
