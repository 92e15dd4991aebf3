import Verif.Spec.Glyphs
import Verif.Props.C42_Fonts
import Verif.Spec.Meaning
/-! The fonts of the standard in a document. -/
namespace Verif
open Spec

/-- the name of a font of the standard -/
def stdName : Face → Option Bytes
  | .std base => some (base.map latin1)
  | .file _ => none

theorem new_std {k : FKey} {f : Font} (h : Fonts.new.at k = some f) :
    isStandard k.1 = true ∧ ∃ base, f.face = .std base ∧ baseFont k.1 k.2 = some (base.map latin1) ∧ meaning (nameBytes base) = some (.name (base.map latin1)) := by
  obtain ⟨l, h1, h2⟩ := at_mem h
  have key : ∀ x ∈ Fonts.new.fonts, ∀ y ∈ x.2, isStandard x.1 = true ∧ stdName y.2.face = baseFont x.1 y.1 ∧ (baseFont x.1 y.1).isSome = true ∧
      ((baseFont x.1 y.1).getD []).all (fun c => isRegular c && c != 35) = true := by decide +kernel
  obtain ⟨a, b, c, d⟩ := key _ h1 _ h2
  refine ⟨a, ?_⟩
  cases hf : f.face with
  | file path => rw [← b, hf] at c; cases c
  | std base =>
    rw [hf] at b
    rw [← b] at d
    refine ⟨base, rfl, b.symm, ?_⟩
    have d' : (base.map latin1).all (fun c => isRegular c && c != 35) = true := d
    show meaningBytes (47 :: base.map latin1) = _
    rw [meaningBytes, if_pos d']

theorem new_inj {k k' : FKey} {f f' : Font} (h : Fonts.new.at k = some f) (h' : Fonts.new.at k' = some f') (e : f.ref = f'.ref) : k = k' := by
  have : FontInv (fun _ => none) [] ⟨[], []⟩ Fonts.new := FontInv.new _
  exact this.inj k k' f f' (Or.inl (new_std h).1) (Or.inl (new_std h').1) h h' e

/-- the fonts of the standard by the names that pages give them -/
def stdFont (name : Bytes) : Option Bytes :=
  (dget name (Fonts.new.fonts.flatMap fun x => x.2.map fun y => (bytesOf y.2.ref, baseFont x.1 y.1))).getD none

theorem stdFont_new {k : FKey} {f : Font} (h : Fonts.new.at k = some f) : stdFont (bytesOf f.ref) = baseFont k.1 k.2 := by
  obtain ⟨l, h1, h2⟩ := at_mem h
  have key : ∀ x ∈ Fonts.new.fonts, ∀ y ∈ x.2, stdFont (bytesOf y.2.ref) = baseFont x.1 y.1 := by decide +kernel
  exact key _ h1 _ h2

theorem new_latin {k : FKey} {f : Font} (h : Fonts.new.at k = some f) : (f.ref.all fun c => decide (c.toNat < 256)) = true := by
  obtain ⟨l, h1, h2⟩ := at_mem h
  have key : ∀ x ∈ Fonts.new.fonts, ∀ y ∈ x.2, (y.2.ref.all fun c => decide (c.toNat < 256)) = true := by decide +kernel
  exact key _ h1 _ h2

/-- a document whose fonts are those of the standard -/
structure StdInv (s : PdfT) : Prop where
  fonts : s.fonts = Fonts.new
  wf : s.base.Wf
  used : ∀ k ref id, dget k s.used = some (ref, id) → ∃ f base, Fonts.new.at k = some f ∧ f.ref = ref ∧ f.face = .std base ∧
    s.base.dictAt id = some (stdFontDict base)
  pages : ∀ pg ∈ s.pages, ∀ ref id, dget ref pg.fonts = some id → ∃ k, dget k s.used = some (ref, id)

/-- the pages keep their fonts -/
def FontsStay (s s' : PdfT) : Prop :=
  ∀ (i : Nat) (pg : Page) (ref : Str), s.pages[i]? = some pg → (dget ref pg.fonts).isSome → ∃ pg' : Page, s'.pages[i]? = some pg' ∧ (dget ref pg'.fonts).isSome

theorem FontsStay.refl (s : PdfT) : FontsStay s s := fun _ pg _ h h' => ⟨pg, h, h'⟩
theorem FontsStay.trans {a b c : PdfT} (h : FontsStay a b) (h' : FontsStay b c) : FontsStay a c := by
  intro i pg ref h1 h2
  obtain ⟨pg', h3, h4⟩ := h i pg ref h1 h2
  exact h' i pg' ref h3 h4

theorem Aside.stay {s s' : PdfT} (h : Aside s s') : FontsStay s s' := by
  intro i pg ref h1 h2
  obtain ⟨pg', h3, h4⟩ := h.at_ i pg h1
  exact ⟨pg', h3, by rw [h4]; exact h2⟩

theorem StdInv.aside {s s' : PdfT} (h : StdInv s) (ha : Aside s s') : StdInv s' := by
  refine ⟨ha.fonts.trans h.fonts, ha.grows.1, ?_, ?_⟩
  · intro k ref id hu
    rw [ha.used] at hu
    obtain ⟨f, base, h1, h2, h3, h4⟩ := h.used k ref id hu
    exact ⟨f, base, h1, h2, h3, ha.grows.2.2 _ _ h4⟩
  · intro pg hpg ref id hd
    rw [ha.used]
    rcases ha.mem pg hpg with e | ⟨pg', hp', e⟩
    · rw [e] at hd; simp [dget] at hd
    · rw [e] at hd; exact h.pages pg' hp' ref id hd

theorem StdInv.font {s : PdfT} (h : StdInv s) {pg : Page} (hpg : pg ∈ s.pages) {k : FKey} {f : Font} (hf : Fonts.new.at k = some f) {id : Nat}
    (hd : dget f.ref pg.fonts = some id) : ∃ base, f.face = .std base ∧ s.base.dictAt id = some (stdFontDict base) := by
  obtain ⟨k', hu⟩ := h.pages pg hpg _ _ hd
  obtain ⟨f', base, h1, h2, h3, h4⟩ := h.used _ _ _ hu
  have := new_inj hf h1 h2.symm
  subst this
  rw [hf] at h1
  cases h1
  exact ⟨base, h3, h4⟩

theorem StdInv.addOrGet {E : PdfEnv} {p p' : FProc} {s s' : PdfT} (h : StdInv s) {k : FKey} {f : Font} (hf : Fonts.new.at k = some f) {r : Str × Nat}
    (hg : s.addOrGetFont E p k = .ok (r, p', s')) :
    StdInv s' ∧ dget k s'.used = some r ∧ s'.pages = s.pages ∧ s'.pageIndex = s.pageIndex := by
  unfold PdfT.addOrGetFont at hg
  cases hu : dget k s.used with
  | some r0 => rw [hu] at hg; cases hg; exact ⟨h, hu, rfl, rfl⟩
  | none =>
    rw [hu] at hg
    simp only at hg
    obtain ⟨hstd, base, hb, -⟩ := new_std hf
    have hpick : Fonts.new.pick k = .ok f := by
      unfold Fonts.at at hf
      obtain ⟨l, h1, h2⟩ := Option.bind_eq_some_iff.1 hf
      simp only [Fonts.pick, h1, pickMode, h2]
    have hget : s.fonts.getFont E.files p k = .ok (f, p, s.fonts) := by
      unfold Fonts.getFont
      rw [if_pos hstd, h.fonts, hpick]
      rfl
    rw [hget] at hg
    simp only [addFontObj, hb] at hg
    cases hg
    have hgr := Grows.add h.wf (stdFontDict base)
    refine ⟨⟨h.fonts, hgr.1, ?_, ?_⟩, by rw [dget_dset_self], rfl, rfl⟩
    · intro k' ref id hk
      rw [dget_dset] at hk
      split at hk
      · rename_i e
        subst e
        cases hk
        exact ⟨f, base, hf, rfl, hb, dictAt_add_self h.wf _⟩
      · obtain ⟨f', base', h1, h2, h3, h4⟩ := h.used _ _ _ hk
        exact ⟨f', base', h1, h2, h3, hgr.2.2 _ _ h4⟩
    · intro pg hpg ref id hd
      obtain ⟨k', hk'⟩ := h.pages pg hpg ref id hd
      refine ⟨k', ?_⟩
      rw [dget_dset, if_neg ?_, hk']
      rintro rfl
      rw [hu] at hk'
      cases hk'

theorem StdInv.usedFont {E : PdfEnv} {p p' : FProc} {s s' : PdfT} (h : StdInv s) {k : FKey} {f : Font} (hf : Fonts.new.at k = some f)
    (hg : s.usedFont E p k = .ok (p', s')) :
    StdInv s' ∧ FontsStay s s' ∧ s'.pageIndex = s.pageIndex ∧ ∃ pg, s'.pages[s.pageIndex]? = some pg ∧ (dget f.ref pg.fonts).isSome := by
  unfold PdfT.usedFont at hg
  cases h1 : s.addOrGetFont E p k with
  | error e => rw [h1] at hg; cases hg
  | ok q =>
    obtain ⟨⟨ref, id⟩, p1, s1⟩ := q
    rw [h1] at hg
    simp only at hg
    obtain ⟨a1, a2, a3, a4⟩ := h.addOrGet hf h1
    obtain ⟨f', base, b1, b2, -, -⟩ := a1.used _ _ _ a2
    rw [hf] at b1
    cases b1
    subst b2
    cases h2 : s1.pages[s1.pageIndex]? with
    | none => rw [h2] at hg; cases hg
    | some pg =>
      rw [h2] at hg
      cases hg
      refine ⟨⟨a1.fonts, a1.wf, a1.used, ?_⟩, ?_, a4, pg.addFont f.ref id, ?_, ?_⟩
      · intro q hq ref' id' hd
        simp only [PdfT.onPage] at hq
        obtain ⟨i, hi⟩ := List.mem_iff_getElem?.1 hq
        rw [List.getElem?_modify] at hi
        obtain ⟨q0, hq0, he⟩ := Option.map_eq_some_iff.1 hi
        by_cases hii : s1.pageIndex = i
        · rw [if_pos hii] at he
          subst he
          simp only [Page.addFont, dget_dset] at hd
          split at hd
          · rename_i hr
            cases hd; subst hr
            exact ⟨k, a2⟩
          · exact a1.pages q0 (List.mem_of_getElem? hq0) _ _ hd
        · rw [if_neg hii] at he
          subst he
          exact a1.pages _ (List.mem_of_getElem? hq0) _ _ hd
      · intro i q ref' hq hd
        rw [← a3] at hq
        simp only [PdfT.onPage, List.getElem?_modify, hq]
        refine ⟨_, rfl, ?_⟩
        beta_reduce
        split
        · simp only [Page.addFont, dget_dset]
          split
          · rfl
          · exact hd
        · exact hd
      · simp only [PdfT.onPage, List.getElem?_modify]
        rw [a4] at h2 ⊢
        rw [h2]
        simp
      · simp [Page.addFont]

theorem StdInv.usedFonts {E : PdfEnv} : ∀ (l : List FKey) {p p' : FProc} {s s' : PdfT}, StdInv s → (∀ k ∈ l, ∃ f, Fonts.new.at k = some f) →
    s.usedFonts E l p = .ok (p', s') → StdInv s' ∧ FontsStay s s' ∧ s'.pageIndex = s.pageIndex ∧
      ∀ k ∈ l, ∀ f, Fonts.new.at k = some f → ∃ pg, s'.pages[s.pageIndex]? = some pg ∧ (dget f.ref pg.fonts).isSome := by
  intro l
  induction l with
  | nil =>
    intro p p' s s' h _ hg
    cases hg
    exact ⟨h, .refl _, rfl, by simp⟩
  | cons k l ih =>
    intro p p' s s' h hk hg
    simp only [PdfT.usedFonts] at hg
    cases h1 : s.usedFont E p k with
    | error e => rw [h1] at hg; cases hg
    | ok q =>
      obtain ⟨p1, s1⟩ := q
      rw [h1] at hg
      simp only at hg
      obtain ⟨f, hf⟩ := hk k (by simp)
      obtain ⟨a1, a2, a3, pg, a4, a5⟩ := h.usedFont hf h1
      obtain ⟨b1, b2, b3, b4⟩ := ih a1 (fun k' hk' => hk k' (by simp [hk'])) hg
      refine ⟨b1, a2.trans b2, b3.trans a3, ?_⟩
      intro k' hk' f' hf'
      rcases List.mem_cons.1 hk' with rfl | hk'
      · rw [hf] at hf'
        cases hf'
        exact b2 _ _ _ a4 a5
      · rw [← a3]
        exact b4 k' hk' f' hf'

theorem Aside.setPage {s : PdfT} (hw : s.base.Wf) {page page' : Page} (h1 : s.pages[s.pageIndex]? = some page) (hf : page'.fonts = page.fonts) :
    Aside s (s.onPage fun _ => page') := by
  refine ⟨rfl, rfl, ⟨hw, le_refl _, fun _ _ h => h⟩, fun _ _ h _ => h, ?_, ?_⟩
  · intro pg hpg
    simp only [PdfT.onPage] at hpg
    obtain ⟨i, hi⟩ := List.mem_iff_getElem?.1 hpg
    rw [List.getElem?_modify] at hi
    obtain ⟨q0, hq0, he⟩ := Option.map_eq_some_iff.1 hi
    subst he
    by_cases hii : s.pageIndex = i
    · subst hii
      rw [h1] at hq0
      cases hq0
      exact Or.inr ⟨page, List.mem_of_getElem? h1, by simpa using hf⟩
    · rw [if_neg hii]
      exact Or.inr ⟨q0, List.mem_of_getElem? hq0, rfl⟩
  · intro i pg hi
    simp only [PdfT.onPage, List.getElem?_modify, hi]
    refine ⟨_, rfl, ?_⟩
    beta_reduce
    by_cases hii : s.pageIndex = i
    · subst hii
      rw [h1] at hi
      cases hi
      rw [if_pos rfl]
      exact hf
    · rw [if_neg hii]

theorem Aside.addPage {s : PdfT} (hw : s.base.Wf) (w h t b l r : Rat) : Aside s (s.addPage w h t b l r) := by
  have h1 := Grows.add hw [(kFilter, .bytes b!"/FlateDecode"), (kStream, .dict [])]
  refine ⟨rfl, rfl, h1.trans (Grows.add h1.1 _), ?_, ?_, ?_⟩
  · intro id d hd hf
    rcases font_dicts_add h1.1 _ hd with ⟨_, rfl⟩ | hi
    · simp [isFontDict, dget, kType, kSubtype, kContents, kResources] at hf
    · rcases font_dicts_add hw _ hi with ⟨_, rfl⟩ | hi
      · simp [isFontDict, dget, kFilter, kStream, kSubtype] at hf
      · exact hi
  · intro pg hpg
    simp only [PdfT.addPage, List.mem_append, List.mem_singleton] at hpg
    rcases hpg with hpg | rfl
    · exact Or.inr ⟨pg, hpg, rfl⟩
    · exact Or.inl rfl
  · intro i pg hi
    simp only [PdfT.addPage]
    exact ⟨pg, by rw [List.getElem?_append_left (List.getElem?_eq_some_iff.1 hi).1]; exact hi, rfl⟩

theorem StdInv.addText {E : PdfEnv} {F : NumFmt} {p p' : FProc} {s s' : PdfT} (h : StdInv s) {x y width height : Rat} {text graphics : Str}
    {used : List FKey} {ids : List (Str × List IdRect)} {move : Str} (hk : ∀ k ∈ used, ∃ f, Fonts.new.at k = some f)
    (hg : s.addText E F p x y width height text graphics used ids move = .ok (p', s')) :
    StdInv s' ∧ FontsStay s s' ∧ ∀ k ∈ used, ∀ f, Fonts.new.at k = some f → ∃ pg, s'.pages[s.pageIndex]? = some pg ∧ (dget f.ref pg.fonts).isSome := by
  unfold PdfT.addText at hg
  cases h1 : s.pages[s.pageIndex]? with
  | none => rw [h1] at hg; cases hg
  | some page =>
    rw [h1] at hg
    simp only at hg
    cases h2 : page.addStr (paragraphStream F x y text graphics) with
    | error e => rw [h2] at hg; cases hg
    | ok q =>
      obtain ⟨n, page'⟩ := q
      rw [h2] at hg
      simp only at hg
      cases h3 : (s.onPage fun _ => page').usedFonts E used p with
      | error e => rw [h3] at hg; cases hg
      | ok q =>
        obtain ⟨p1, s1⟩ := q
        rw [h3] at hg
        simp only at hg
        cases h4 : s1.addIds E page x y ids with
        | error e => rw [h4] at hg; cases hg
        | ok s2 =>
          rw [h4] at hg
          cases hg
          have hf : page'.fonts = page.fonts := by
            unfold Page.addStr at h2
            cases hb : encodeLatin (paragraphStream F x y text graphics) with
            | error e => rw [hb] at h2; cases h2
            | ok b => rw [hb] at h2; cases h2; rfl
          have ha0 := Aside.setPage h.wf h1 hf
          obtain ⟨a1, a2, a3, a4⟩ := StdInv.usedFonts used (h.aside ha0) hk h3
          obtain ⟨b1, b2⟩ := addIds_aside ids a1.wf h4
          have c1 := Aside.onPage (s := s2) b1.grows.1 (movePage_fonts move width height)
          have ha := b1.trans c1
          refine ⟨a1.aside ha, (ha0.stay.trans a2).trans ha.stay, ?_⟩
          intro k hkk f hff
          obtain ⟨pg, d1, d2⟩ := a4 k hkk f hff
          exact ha.stay _ _ _ d1 d2

theorem StdInv.new {E : PdfEnv} {p p' : FProc} {version : Str} {s : PdfT} (h : PdfT.new E p version = .ok (p', s)) : StdInv s := by
  have h' := h
  unfold PdfT.new at h'
  cases hf : (PdfT.init version).addOrGetFont E p (c!"Helvetica", c!"n") with
  | error e => rw [hf] at h'; cases h'
  | ok r =>
    rw [hf] at h'
    cases h'
    have hi : StdInv (PdfT.init version) := by
      refine ⟨rfl, ?_, ?_, ?_⟩
      · have hw : (Base.new version []).Wf := by simp [Base.Wf, Base.new]
        exact hw.addDict _
      · intro k ref id hu; cases hu
      · intro pg hpg; cases hpg
    have hat : ∃ f, Fonts.new.at (c!"Helvetica", c!"n") = some f := Option.isSome_iff_exists.1 (by decide +kernel)
    obtain ⟨f, hat⟩ := hat
    exact (hi.addOrGet (r := r.1) (p' := r.2.1) (s' := r.2.2) hat hf).1

end Verif
