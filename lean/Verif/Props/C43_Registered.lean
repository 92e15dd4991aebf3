import Verif.Model.Fonts
/-! C43: registered fonts and the documents of a process. -/
namespace Verif

/-- a process: the class attributes, and the `PDFFonts` of its documents -/
structure FWorld where
  proc : FProc
  docs : List Fonts

/-- what can happen to fonts in a process -/
inductive FOp
  | register (k : FKey) (path : Str)
  | newDoc
  | request (doc : Nat) (k : FKey)
  | load (doc : Nat) (path : Str) (k : FKey)

/-- the font a document gets -/
def FWorld.request (files : FontFiles) (w : FWorld) (i : Nat) (k : FKey) : Except PyErr (Font × FWorld) :=
  match w.docs[i]? with
  | none => .error .indexError
  | some d => match d.getFont files w.proc k with
    | .error e => .error e
    | .ok (f, p, d') => .ok (f, ⟨p, w.docs.set i d'⟩)

/-- one operation; an exception changes nothing -/
def FWorld.op (files : FontFiles) (w : FWorld) : FOp → FWorld
  | .register k path => { w with proc := w.proc.register k path }
  | .newDoc => { w with docs := w.docs ++ [Fonts.new] }
  | .request i k => match w.request files i k with
    | .ok (_, w') => w'
    | .error _ => w
  | .load i path k => match w.docs[i]? with
    | none => w
    | some d => match d.load files path k with
      | .ok d' => { w with docs := w.docs.set i d' }
      | .error _ => w

/-- the process at its start -/
def FWorld.init : FWorld := ⟨⟨[], []⟩, []⟩

def FWorld.run (files : FontFiles) (w : FWorld) (ops : List FOp) : FWorld := ops.foldl (FWorld.op files) w

/-- every font has an entry for the normal mode -/
def Fonts.HasN (s : Fonts) : Prop := ∀ fam ∈ s.fonts, ∃ f, dget c!"n" fam.2 = some f

theorem dget_dset_mem {κ ν : Type} [DecidableEq κ] {k : κ} {v : ν} {d : List (κ × ν)} {p : κ × ν} (h : p ∈ dset k v d) :
    p = (k, v) ∨ p ∈ d := by
  induction d with
  | nil => simpa [dset] using h
  | cons q d ih =>
    simp only [dset] at h
    split at h
    · rcases List.mem_cons.1 h with h | h
      · exact Or.inl h
      · exact Or.inr (List.mem_cons_of_mem _ h)
    · rcases List.mem_cons.1 h with h | h
      · exact Or.inr (h ▸ List.mem_cons_self)
      · exact (ih h).imp_right (List.mem_cons_of_mem _)

theorem Fonts.new_hasN : Fonts.new.HasN := by
  have h : ∀ fam ∈ Fonts.new.fonts, (dget c!"n" fam.2).isSome = true := by decide +kernel
  intro fam hf
  exact Option.isSome_iff_exists.1 (h fam hf)

theorem Fonts.load_fonts {files : FontFiles} {s s' : Fonts} {path : Str} {k : FKey} (h : s.load files path k = .ok s') :
    (∃ t, files path = some t) ∧ s'.index = s.index + 1 ∧
      s'.fonts = dset k.1 (dset k.2 ⟨fontRef s.index, .file path⟩
        ((dget k.1 s.fonts).getD [(c!"n", ⟨fontRef s.index, .file path⟩)])) s.fonts := by
  unfold Fonts.load at h
  split at h
  · cases h
  · rename_i t ht
    cases h
    refine ⟨⟨t, ht⟩, rfl, ?_⟩
    simp only
    cases dget k.1 s.fonts <;> rfl

theorem Fonts.HasN.load {files : FontFiles} {s s' : Fonts} {path : Str} {k : FKey} (hs : s.HasN)
    (h : s.load files path k = .ok s') : s'.HasN := by
  obtain ⟨_, _, hf⟩ := Fonts.load_fonts h
  intro fam hm
  rw [hf] at hm
  rcases dget_dset_mem hm with rfl | hm
  · simp only
    rw [dget_dset]
    split
    · exact ⟨_, rfl⟩
    · cases hd : dget k.1 s.fonts with
      | none => exact ⟨⟨fontRef s.index, .file path⟩, by simp [dget]⟩
      | some fam =>
        exact hs _ (dget_mem hd)
  · exact hs fam hm

/-- the font after loading -/
theorem Fonts.pick_load {files : FontFiles} {s s' : Fonts} {path : Str} {k : FKey} (h : s.load files path k = .ok s') :
    s'.pick k = .ok ⟨fontRef s.index, .file path⟩ := by
  obtain ⟨_, _, hf⟩ := Fonts.load_fonts h
  simp [Fonts.pick, hf, pickMode]

/-- a family stays, and a mode is only changed by loading it -/
theorem Fonts.load_keeps {files : FontFiles} {s s' : Fonts} {path : Str} {k k' : FKey} (h : s.load files path k = .ok s')
    (hne : k ≠ k') {fam : List (Str × Font)} (hf : dget k'.1 s.fonts = some fam) :
    ∃ fam', dget k'.1 s'.fonts = some fam' ∧ dget k'.2 fam' = dget k'.2 fam := by
  obtain ⟨_, _, he⟩ := Fonts.load_fonts h
  rw [he, dget_dset]
  by_cases h1 : k'.1 = k.1
  · rw [if_pos h1]
    refine ⟨_, rfl, ?_⟩
    rw [dget_dset, if_neg, ← h1, hf]
    · rfl
    · intro h2
      exact hne (Prod.ext h1.symm h2.symm)
  · rw [if_neg h1]
    exact ⟨fam, hf, rfl⟩

/-- what `getFont` does to the states -/
theorem Fonts.getFont_cases {files : FontFiles} {p p' : FProc} {s s' : Fonts} {k : FKey} {f : Font}
    (h : s.getFont files p k = .ok (f, p', s')) :
    (p' = p ∧ s' = s ∧ s.pick k = .ok f ∧ (isStandard k.1 = true ∨ k ∈ p.loaded)) ∨
    (∃ path, isStandard k.1 = false ∧ k ∉ p.loaded ∧ dget k p.registered = some path ∧ s.load files path k = .ok s' ∧
      s'.pick k = .ok f ∧ p' = { p with loaded := p.loaded ++ [k] }) := by
  unfold Fonts.getFont at h
  split at h
  · rename_i hstd
    cases hp : s.pick k with
    | error e => rw [hp] at h; cases h
    | ok g => rw [hp] at h; cases h; exact Or.inl ⟨rfl, rfl, rfl, Or.inl hstd⟩
  · rename_i hstd
    split at h
    · cases h
    · rename_i path hr
      split at h
      · rename_i hl
        cases hp : s.pick k with
        | error e => rw [hp] at h; cases h
        | ok g => rw [hp] at h; cases h; exact Or.inl ⟨rfl, rfl, rfl, Or.inr hl⟩
      · rename_i hl
        split at h
        · cases h
        · rename_i s1 hl1
          cases hp : s1.pick k with
          | error e => rw [hp] at h; cases h
          | ok g =>
            rw [hp] at h; cases h
            exact Or.inr ⟨path, by simpa using hstd, hl, hr, hl1, hp, rfl⟩

/-- the font requested is loaded in document `i`, from a file registered under its name -/
structure KeyInv (files : FontFiles) (k : FKey) (i : Nat) (w : FWorld) (past : List FOp) : Prop where
  hasN : ∀ d ∈ w.docs, d.HasN
  reg : ∀ path, dget k w.proc.registered = some path → FOp.register k path ∈ past
  loaded : k ∈ w.proc.loaded → ∃ d fam path r t, w.docs[i]? = some d ∧ dget k.1 d.fonts = some fam ∧
    dget k.2 fam = some ⟨r, .file path⟩ ∧ FOp.register k path ∈ past ∧ files path = some t

theorem KeyInv.step {files : FontFiles} {k : FKey} {i : Nat} {w : FWorld} {past : List FOp} (h : KeyInv files k i w past)
    (o : FOp) (h1 : ∀ j, o = .request j k → j = i) (h2 : ∀ path, o ≠ .load i path k) (hstd : isStandard k.1 = false) :
    KeyInv files k i (w.op files o) (past ++ [o]) := by
  have keep : ∀ {w' : FWorld}, (∀ d ∈ w'.docs, d.HasN) → w'.proc.registered = w.proc.registered →
      (k ∈ w'.proc.loaded → k ∈ w.proc.loaded) →
      (∀ d fam v, w.docs[i]? = some d → dget k.1 d.fonts = some fam → dget k.2 fam = some v →
        ∃ d' fam', w'.docs[i]? = some d' ∧ dget k.1 d'.fonts = some fam' ∧ dget k.2 fam' = some v) →
      KeyInv files k i w' (past ++ [o]) := by
    intro w' a b c e
    refine ⟨a, fun path hp => ?_, fun hl => ?_⟩
    · rw [b] at hp; exact List.mem_append_left _ (h.reg path hp)
    · obtain ⟨d, fam, path, r, t, q1, q2, q3, q4, q5⟩ := h.loaded (c hl)
      obtain ⟨d', fam', q1, q2, q3⟩ := e d fam _ q1 q2 q3
      exact ⟨d', fam', path, r, t, q1, q2, q3, List.mem_append_left _ q4, q5⟩
  -- loading a font into a document
  have docSet : ∀ {j : Nat} {d d' : Fonts} {path : Str} {k' : FKey}, w.docs[j]? = some d → d.load files path k' = .ok d' →
      (j = i → k' ≠ k) → ∀ d0 fam v, w.docs[i]? = some d0 → dget k.1 d0.fonts = some fam → dget k.2 fam = some v →
      ∃ d1 fam', (w.docs.set j d')[i]? = some d1 ∧ dget k.1 d1.fonts = some fam' ∧ dget k.2 fam' = some v := by
    intro j d d' path k' hj hl hne d0 fam v q1 q2 q3
    by_cases hji : j = i
    · subst hji
      rw [hj] at q1
      cases q1
      obtain ⟨fam', e1, e2⟩ := Fonts.load_keeps hl (hne rfl) q2
      refine ⟨d', fam', ?_, e1, e2.trans q3⟩
      have := (List.getElem?_eq_some_iff.1 hj).1
      simp [this]
    · exact ⟨d0, fam, by rw [List.getElem?_set_ne hji]; exact q1, q2, q3⟩
  have setN : ∀ {j : Nat} {d d' : Fonts} {path : Str} {k' : FKey}, w.docs[j]? = some d → d.load files path k' = .ok d' →
      ∀ x ∈ w.docs.set j d', x.HasN := by
    intro j d d' path k' hj hl x hx
    rcases List.mem_or_eq_of_mem_set hx with hx | rfl
    · exact h.hasN x hx
    · exact (h.hasN d (List.mem_of_getElem? hj)).load hl
  cases o with
  | register k' path =>
    refine ⟨h.hasN, ?_, ?_⟩
    · intro q hq
      simp only [FWorld.op, FProc.register, dget_dset] at hq
      split at hq
      · rename_i hk; cases hq; subst hk; simp
      · exact List.mem_append_left _ (h.reg q hq)
    · intro hl
      obtain ⟨d, fam, path, r, t, q1, q2, q3, q4, q5⟩ := h.loaded hl
      exact ⟨d, fam, path, r, t, q1, q2, q3, List.mem_append_left _ q4, q5⟩
  | newDoc =>
    refine keep ?_ rfl id ?_
    · intro d hd
      simp only [FWorld.op, List.mem_append, List.mem_singleton] at hd
      rcases hd with hd | rfl
      · exact h.hasN d hd
      · exact Fonts.new_hasN
    · intro d fam v q1 q2 q3
      refine ⟨d, fam, ?_, q2, q3⟩
      simp only [FWorld.op]
      rw [List.getElem?_append_left (List.getElem?_eq_some_iff.1 q1).1]
      exact q1
  | load j path k' =>
    simp only [FWorld.op]
    split
    · exact keep h.hasN rfl id fun d fam v q1 q2 q3 => ⟨d, fam, q1, q2, q3⟩
    · rename_i d hd
      split
      · rename_i d' hl
        refine keep (setN hd hl) rfl id (docSet hd hl ?_)
        rintro rfl rfl
        exact h2 path rfl
      · exact keep h.hasN rfl id fun d fam v q1 q2 q3 => ⟨d, fam, q1, q2, q3⟩
  | request j k' =>
    simp only [FWorld.op, FWorld.request]
    cases hd : w.docs[j]? with
    | none => exact keep h.hasN rfl id fun d fam v q1 q2 q3 => ⟨d, fam, q1, q2, q3⟩
    | some d =>
      simp only
      cases hg : d.getFont files w.proc k' with
      | error e => exact keep h.hasN rfl id fun d fam v q1 q2 q3 => ⟨d, fam, q1, q2, q3⟩
      | ok r =>
        obtain ⟨f, p', d'⟩ := r
        simp only
        rcases Fonts.getFont_cases hg with ⟨rfl, rfl, _, _⟩ | ⟨path, c1, c2, c3, c4, c5, rfl⟩
        · have : w.docs.set j d' = w.docs := by
            obtain ⟨hlt, he⟩ := List.getElem?_eq_some_iff.1 hd
            rw [← he]
            exact List.set_getElem_self hlt
          rw [this]
          exact keep h.hasN rfl id fun d fam v q1 q2 q3 => ⟨d, fam, q1, q2, q3⟩
        · by_cases hk : k' = k
          · subst hk
            have hj := h1 j rfl
            subst hj
            refine ⟨setN hd c4, fun q hq => List.mem_append_left _ (h.reg q hq), ?_⟩
            intro _
            obtain ⟨⟨t, ht⟩, _, he⟩ := Fonts.load_fonts c4
            refine ⟨d', _, path, fontRef d.index, t, ?_, by rw [he, dget_dset_self], by rw [dget_dset_self], ?_, ht⟩
            · have := (List.getElem?_eq_some_iff.1 hd).1
              simp [this]
            · exact List.mem_append_left _ (h.reg path c3)
          · refine keep (setN hd c4) rfl ?_ (docSet hd c4 fun _ => hk)
            intro hl
            simp only [List.mem_append, List.mem_singleton] at hl
            rcases hl with hl | hl
            · exact hl
            · exact absurd hl.symm hk

theorem KeyInv.run {files : FontFiles} {k : FKey} {i : Nat} (hstd : isStandard k.1 = false) (ops : List FOp)
    {w : FWorld} {past : List FOp} (h : KeyInv files k i w past)
    (h1 : ∀ j, FOp.request j k ∈ ops → j = i) (h2 : ∀ path, FOp.load i path k ∉ ops) :
    KeyInv files k i (w.run files ops) (past ++ ops) := by
  induction ops generalizing w past with
  | nil => simpa [FWorld.run] using h
  | cons o ops ih =>
    have := ih (h.step o (fun j hj => h1 j (hj ▸ List.mem_cons_self)) (fun p hp => h2 p (hp ▸ List.mem_cons_self)) hstd)
      (fun j hj => h1 j (List.mem_cons_of_mem _ hj)) (fun p hp => h2 p (List.mem_cons_of_mem _ hp))
    simpa [FWorld.run] using this

/-- C43 for fonts that one document of the process asks for: after any history, a font that is registered
with a readable file is found by the document, and is one of the files registered for it. Missing: other
documents that ask for the same font, see `C43_second_document_false`. -/
theorem C43_one_document_partial (files : FontFiles) (ops : List FOp) (k : FKey) (i : Nat)
    (hstd : isStandard k.1 = false) (h1 : ∀ j, FOp.request j k ∈ ops → j = i) (h2 : ∀ path, FOp.load i path k ∉ ops)
    (path : Str) (hreg : dget k (FWorld.init.run files ops).proc.registered = some path) (hfile : ∃ t, files path = some t)
    (hdoc : i < (FWorld.init.run files ops).docs.length) :
    ∃ f w', (FWorld.init.run files ops).request files i k = .ok (f, w') ∧
      ∃ path', FOp.register k path' ∈ ops ∧ f.face = .file path' := by
  have inv : KeyInv files k i (FWorld.init.run files ops) ops := by
    have h0 : KeyInv files k i FWorld.init [] := ⟨by simp [FWorld.init], by simp [FWorld.init, dget], by simp [FWorld.init]⟩
    simpa using h0.run hstd ops h1 h2
  generalize FWorld.init.run files ops = w at *
  have hd : w.docs[i]? = some w.docs[i] := List.getElem?_eq_getElem hdoc
  generalize w.docs[i] = d at hd
  simp only [FWorld.request, hd]
  unfold Fonts.getFont
  rw [if_neg (by simp [hstd]), hreg]
  by_cases hl : k ∈ w.proc.loaded
  · obtain ⟨d', fam, path', r, t, q1, q2, q3, q4, q5⟩ := inv.loaded hl
    rw [hd] at q1
    cases q1
    have hp : d.pick k = .ok ⟨r, .file path'⟩ := by simp [Fonts.pick, q2, pickMode, q3]
    simp only [hl, if_true, hp, Except.map]
    exact ⟨_, _, rfl, path', q4, rfl⟩
  · obtain ⟨t, ht⟩ := hfile
    simp only [hl, if_false]
    have : ∃ d', d.load files path k = .ok d' := by simp [Fonts.load, ht]
    obtain ⟨d', hd'⟩ := this
    simp only [hd', Fonts.pick_load hd', Except.map]
    exact ⟨_, _, rfl, path, inv.reg path hreg, rfl⟩

/-- the standard families: every document finds them in any mode -/
theorem C43_standard (files : FontFiles) (p : FProc) (fam : Str × List (Str × Str)) (h : fam ∈ standardFonts) (mode : Str) :
    ∃ f, Fonts.new.getFont files p (fam.1, mode) = .ok (f, p, Fonts.new) ∧
      f.face = .std ((dget mode fam.2).getD ((dget c!"n" fam.2).getD [])) := by
  have hstd : isStandard fam.1 = true := by
    simp only [isStandard, List.any_eq_true]
    exact ⟨fam, h, by simp⟩
  unfold Fonts.getFont
  rw [if_pos hstd]
  have key : ∀ fam ∈ standardFonts, ∃ l, dget fam.1 Fonts.new.fonts = some l ∧ l.map (fun x => (x.1, x.2.face)) = fam.2.map (fun x => (x.1, Face.std x.2)) ∧
      (dget c!"n" fam.2).isSome = true := by
    have : ∀ fam ∈ standardFonts, ((dget fam.1 Fonts.new.fonts).map fun l => l.map (fun x => (x.1, x.2.face)))
        = some (fam.2.map (fun x => (x.1, Face.std x.2))) ∧ (dget c!"n" fam.2).isSome = true := by decide +kernel
    intro fam hf
    have := this fam hf
    obtain ⟨l, h1, h2⟩ := Option.map_eq_some_iff.1 this.1
    exact ⟨l, h1, h2, this.2⟩
  obtain ⟨l, h1, h2, h3⟩ := key fam h
  have get : ∀ (m : Str) (l : List (Str × Font)) (l' : List (Str × Str)), l.map (fun x => (x.1, x.2.face)) = l'.map (fun x => (x.1, Face.std x.2)) →
      (dget m l).map Font.face = (dget m l').map Face.std := by
    intro m l
    induction l with
    | nil =>
      intro l' hl
      cases l' with
      | nil => rfl
      | cons a l' => simp at hl
    | cons a l ih =>
      intro l' hl
      cases l' with
      | nil => simp at hl
      | cons b l' =>
        simp only [List.map_cons, List.cons.injEq, Prod.mk.injEq] at hl
        simp only [dget, hl.1.1]
        split
        · simp [hl.1.2]
        · exact ih l' hl.2
  obtain ⟨b, hb⟩ := Option.isSome_iff_exists.1 h3
  have gm := get mode l fam.2 h2
  have gn := get c!"n" l fam.2 h2
  rw [hb] at gn
  obtain ⟨fn, hfn, hfn'⟩ := Option.map_eq_some_iff.1 gn
  simp only [Fonts.pick, h1, pickMode]
  cases hm : dget mode l with
  | some f =>
    rw [hm] at gm
    obtain ⟨b', hb', he⟩ := Option.map_eq_some_iff.1 gm.symm
    refine ⟨f, rfl, ?_⟩
    rw [hb']
    exact he.symm
  | none =>
    rw [hm] at gm
    have : dget mode fam.2 = none := by
      cases hh : dget mode fam.2 with
      | none => rfl
      | some x => rw [hh] at gm; simp at gm
    rw [this]
    refine ⟨fn, by simp [hfn, Except.map], by simpa [hb] using hfn'⟩

/-- a font file for the examples -/
def sampleTT : TTFile := ⟨c!"Nice", [1, 2, 3], [], [(97, 3), (98, 4)], fun _ => 500, 1000⟩

def sampleFiles : FontFiles := fun p => if p = c!"n.ttf" ∨ p = c!"b.ttf" then some sampleTT else none

private def ex43Fam : Str := c!"Nice"

/-- C43 is violated: a font that is registered and was used by one document cannot be used by the next one,
which raises `KeyError`. -/
theorem C43_second_document_false :
    ∃ ops k path, dget k (FWorld.init.run sampleFiles ops).proc.registered = some path ∧ (sampleFiles path).isSome = true ∧
      1 < (FWorld.init.run sampleFiles ops).docs.length ∧
      ((FWorld.init.run sampleFiles ops).request sampleFiles 1 k).map (·.1) = .error .keyError := by
  refine ⟨[.register (ex43Fam, c!"n") c!"n.ttf", .newDoc, .request 0 (ex43Fam, c!"n"), .newDoc], (ex43Fam, c!"n"), c!"n.ttf", ?_⟩
  decide +kernel

/-- C43 is violated silently too: the second document, which has used the normal font, gets it again when
it asks for the bold one that only the first document has loaded. -/
theorem C43_wrong_face_false :
    ∃ ops k path, dget k (FWorld.init.run sampleFiles ops).proc.registered = some path ∧ path = c!"b.ttf" ∧
      ((FWorld.init.run sampleFiles ops).request sampleFiles 1 k).map (·.1.face) = .ok (.file c!"n.ttf") := by
  refine ⟨[.register (ex43Fam, c!"b") c!"b.ttf", .newDoc, .request 0 (ex43Fam, c!"b"), .newDoc,
    .register (ex43Fam, c!"n") c!"n.ttf", .request 1 (ex43Fam, c!"n")], (ex43Fam, c!"b"), c!"b.ttf", ?_⟩
  decide +kernel

/-- a font loaded with `PDF.add_font` cannot be used: only registered families are looked for -/
theorem C43_added_font_false :
    ∃ ops k, FOp.load 0 c!"n.ttf" k ∈ ops ∧ (dget k.1 ((FWorld.init.run sampleFiles ops).docs.headD ⟨[], 0⟩).fonts).isSome = true ∧
      ((FWorld.init.run sampleFiles ops).request sampleFiles 0 k).map (·.1) = .error .valueError := by
  refine ⟨[.newDoc, .load 0 c!"n.ttf" (ex43Fam, c!"n")], (ex43Fam, c!"n"), by simp, ?_⟩
  decide +kernel

example : ((FWorld.init.run sampleFiles [.register (ex43Fam, c!"n") c!"n.ttf", .register (ex43Fam, c!"b") c!"b.ttf", .newDoc,
    .newDoc, .request 0 (ex43Fam, c!"b"), .request 1 (ex43Fam, c!"n"), .request 0 (ex43Fam, c!"b")]).request sampleFiles 1 (ex43Fam, c!"n")).map
    (·.1) = .ok ⟨c!"F15", .file c!"n.ttf"⟩ := by decide +kernel

end Verif
