import Verif.Lemmas.WritableTrees
import Verif.Lemmas.DocOps
/-! Lemmas for C91: a document made from values that can be written has only objects that can be written. -/
namespace Verif
open Spec

theorem digit_regular : ∀ n : Nat, n < 58 → 48 ≤ n → isRegular (UInt8.ofNat n) = true := by decide +kernel

theorem nameChars_natStr (n : Nat) : nameChars (natStr n) = true := by
  unfold nameChars
  rw [List.all_eq_true]
  intro c hc
  obtain ⟨h1, h2⟩ := isDigit_range (natStr_digit hc)
  simp only [Bool.and_eq_true, decide_eq_true_eq, bne_iff_ne, ne_eq]
  refine ⟨⟨by omega, digit_regular _ (by omega) h1⟩, ?_⟩
  rintro rfl
  simp at h1

theorem nameChars_append {a b : Str} (ha : nameChars a = true) (hb : nameChars b = true) : nameChars (a ++ b) = true := by
  unfold nameChars at *
  rw [List.all_append, ha, hb]; rfl

/-- a name for a resource -/
def ResName (s : Str) : Prop := nameChars s = true ∧ Key.str s ≠ kStream

theorem ResName.ref (n : Nat) : ResName (fontRef n) :=
  ⟨nameChars_append (a := ['F']) (by decide) (nameChars_natStr n), by simp [kStream, fontRef]⟩
theorem ResName.im (n : Nat) : ResName (imName n) :=
  ⟨nameChars_append (a := c!"Im") (by decide) (nameChars_natStr n), by simp [kStream, imName]⟩

/-! ### Pages -/

/-- the names of the resources and the targets of the references of a page can be written -/
structure Page.Ok (p : Page) : Prop where
  fonts : ∀ q ∈ p.fonts, ResName q.1
  xres : ∀ q ∈ p.xres, ResName q.1
  annots : ∀ name r, Annot.dest name r ∈ p.annots → stringChars name = true

theorem annot_sure {num : Rat → Obj} (hn : ∀ x, Sure (num x)) {a : Annot} (ha : ∀ name r, a = .dest name r → stringChars name = true) : Sure (a.obj num) := by
  have hr : ∀ r : List Rat, Sure (.seq (r.map num)) := by
    intro r
    rw [Sure.seq]
    intro o ho
    obtain ⟨x, -, rfl⟩ := List.mem_map.1 ho
    exact hn x
  cases a with
  | link action rect =>
    refine Sure.dict.2 ?_
    simp only [List.forall_mem_cons, List.not_mem_nil, false_implies, implies_true, and_true]
    exact ⟨⟨⟨_, rfl, by decide, by exact rfl⟩, ⟨_, rfl, by decide, by exact rfl⟩, ⟨_, rfl, by decide, by exact rfl⟩, ⟨_, rfl, by decide, by exact rfl⟩,
      ⟨_, rfl, by decide, hr _⟩⟩, by simp [kStream, kType], by simp [kStream], by simp [kStream], by simp [kStream], by simp [kStream, kRect]⟩
  | dest name rect =>
    refine Sure.dict.2 ?_
    simp only [List.forall_mem_cons, List.not_mem_nil, false_implies, implies_true, and_true]
    exact ⟨⟨⟨_, rfl, by decide, by exact rfl⟩, ⟨_, rfl, by decide, by exact rfl⟩, ⟨_, rfl, by decide, .str (ha name rect rfl)⟩,
      ⟨_, rfl, by decide, hr _⟩⟩, by simp [kStream, kType], by simp [kStream], by simp [kStream], by simp [kStream, kRect]⟩

theorem resPart_mem {k : Key} {l : List (Str × Nat)} {p : Key × Obj} (h : p ∈ resPart k l) : p = (k, .dict (l.map fun q => (.str q.1, .ref q.2))) := by
  unfold resPart at h
  split at h
  · cases h
  · exact List.mem_singleton.1 h

theorem refs_sure {l : List (Str × Nat)} (h : ∀ q ∈ l, ResName q.1) : Sure (.dict (l.map fun q => (.str q.1, .ref q.2))) := by
  refine Sure.dict.2 ⟨?_, ?_⟩
  · intro p hp
    obtain ⟨q, hq, rfl⟩ := List.mem_map.1 hp
    exact ⟨q.1, rfl, (h q hq).1, by exact rfl⟩
  · intro p hp
    obtain ⟨q, hq, rfl⟩ := List.mem_map.1 hp
    exact (h q hq).2

theorem resources_sure {p : Page} (h : p.Ok) : Sure p.resources := by
  refine Sure.dict.2 ⟨?_, ?_⟩
  · intro q hq
    rcases List.mem_append.1 hq with hq | hq <;> rw [resPart_mem hq]
    · exact ⟨_, rfl, by decide, refs_sure h.fonts⟩
    · exact ⟨_, rfl, by decide, refs_sure h.xres⟩
  · intro q hq
    rcases List.mem_append.1 hq with hq | hq <;> rw [resPart_mem hq]
    · simp [kStream, kFont]
    · simp [kStream, kXObject]

theorem chunks_parts (p : Page) : streamParts p.chunks = true := by
  simp [Page.chunks, streamParts, List.all_map]

theorem flush_fine {num : Rat → Obj} (hn : ∀ x, Sure (num x)) {p : Page} (hp : p.Ok) {b : Base} (h : b.Fine) : (p.flush num b).Fine := by
  refine (h.modify _ fun d hd => hd.chunks (chunks_parts p)).modify _ fun d hd => ?_
  have h1 := hd.put (k := c!"Resources") (by decide) (resources_sure hp) (by simp [kStream]) (by simp [kFilter]) (by simp [kSkip])
  unfold Page.setAnnots
  split
  · exact h1
  · refine h1.put (k := c!"Annots") (by decide) (Sure.seq.2 ?_) (by simp [kStream]) (by simp [kFilter]) (by simp [kSkip])
    intro o ho
    obtain ⟨a, ha, rfl⟩ := List.mem_map.1 ho
    exact annot_sure hn fun name r e => hp.annots name r (e ▸ ha)

/-! ### Documents -/

/-- the name in the page and the name of a standard font can be written -/
def Font.Ok (f : Font) : Prop := ResName f.ref ∧ ∀ base, f.face = .std base → nameChars base = true

/-- what a document holds can be written -/
structure Clean (s : PdfT) : Prop where
  base : s.base.Fine
  fonts : ∀ x ∈ s.fonts.fonts, ∀ y ∈ x.2, y.2.Ok
  used : ∀ u ∈ s.used, ResName u.2.1
  pages : ∀ p ∈ s.pages, p.Ok
  dests : ∀ e ∈ s.dests, stringChars e.1 = true
  outlines : outlinesOk s.outlines

theorem objects_fine {num : Rat → Obj} (hn : ∀ x, Sure (num x)) {s : PdfT} (h : Clean s) : (s.objects num).Fine := by
  unfold PdfT.objects
  have : ∀ (l : List Page) (b : Base), (∀ p ∈ l, p.Ok) → b.Fine → (l.foldl (fun b p => p.flush num b) b).Fine := by
    intro l
    induction l with
    | nil => intro b _ hb; exact hb
    | cons p l ih =>
      intro b hl hb
      exact ih _ (fun q hq => hl q (List.mem_cons_of_mem _ hq)) (flush_fine hn (hl p List.mem_cons_self) hb)
  exact this _ _ h.pages h.base

theorem trees_fine {num : Rat → Obj} (hn : ∀ x, Sure (num x)) {level : Int} {s : PdfT} (h : Clean s) {b : Base} (hb : s.withTrees num level = .ok b) : b.Fine := by
  unfold PdfT.withTrees at hb
  split at hb
  · cases hb
  · split at hb
    · cases hb
    · rename_i h1
      split at hb
      · cases hb
      · rename_i h2
        cases hb
        refine buildOutlines_fine _ _ (buildDests_fine _ _ (buildPages_fine _ _ (objects_fine hn h) ?_ h1) ?_ h2) h.outlines
        · intro e he q hq
          obtain ⟨p, -, rfl⟩ := List.mem_map.1 he
          cases hq
          exact ⟨hn _, hn _⟩
        · intro e he
          obtain ⟨d, hd, rfl⟩ := List.mem_map.1 he
          refine ⟨h.dests d hd, Sure.seq.2 ?_⟩
          simp only [List.forall_mem_cons, List.not_mem_nil, false_implies, implies_true, and_true]
          exact ⟨by exact rfl, by exact rfl, hn _, hn _, hn _⟩

/-- the values from outside can be written -/
structure PdfEnv.Fine (E : PdfEnv) : Prop where
  num : ∀ x, Sure (E.num x)
  files : ∀ path t, E.files path = some t → fontWritable t.name t.descriptor

theorem Clean.onPage {s : PdfT} (h : Clean s) {f : Page → Page} (hf : ∀ p ∈ s.pages, (f p).Ok) : Clean (s.onPage f) := by
  refine ⟨h.base, h.fonts, h.used, ?_, h.dests, h.outlines⟩
  intro p hp
  rcases mem_modify hp with hp | ⟨q, hq, rfl⟩
  · exact h.pages p hp
  · exact hf q hq

/-! ### Fonts -/

theorem addTTFont_fine {num : Rat → Obj} (hn : ∀ x, Sure (num x)) {b : Base} (h : b.Fine) {f : TTFile} (hf : fontWritable f.name f.descriptor) :
    (addTTFont num b f).2.Fine := by
  obtain ⟨f1, f2, f3⟩ := hf
  have hname := Sure.name f1
  unfold addTTFont
  simp only
  refine ((((h.add ?_).add ?_).add ?_).add ?_).add ?_
  · refine ⟨?_, ?_, ?_⟩
    · simp only [List.forall_mem_cons, List.not_mem_nil, false_implies, implies_true, and_true]
      exact ⟨fun _ => ⟨_, rfl, by decide, by exact rfl⟩, fun h => absurd rfl h, fun _ => ⟨_, rfl, by decide, by exact rfl⟩⟩
    · intro st hs
      simp only [dget, kFilter, kStream, Key.str.injEq, List.cons.injEq, Char.reduceEq, false_and, if_false, reduceIte, Option.some.injEq] at hs
      subst hs
      rfl
    · intro f hf
      left
      simpa [dget, eq_comm] using hf
  · refine Fine.put (k := c!"FontFile2") (.plain ?_) (by decide) (by exact rfl) (by simp [kStream]) (by simp [kFilter]) (by simp [kSkip])
    intro p hp
    rcases List.mem_cons.1 hp with rfl | hp
    · exact item_ok (by decide) (by exact rfl) (by simp [kStream]) (by simp [kFilter])
    · rcases List.mem_cons.1 hp with rfl | hp
      · exact item_ok (by decide) hname (by simp [kStream]) (by simp [kFilter])
      · exact ⟨(items_sure _).1 f2 p hp, f3 p hp⟩
  · refine .plain ?_
    simp only [List.forall_mem_cons, List.not_mem_nil, false_implies, implies_true, and_true]
    refine ⟨item_ok (by decide) (by exact rfl) (by simp [kStream]) (by simp [kFilter]), item_ok (by decide) (by exact rfl) (by simp [kStream]) (by simp [kFilter]),
      item_ok (by decide) hname (by simp [kStream]) (by simp [kFilter]), item_ok (by decide) (by exact rfl) (by simp [kStream]) (by simp [kFilter]),
      item_ok (by decide) (by exact rfl) (by simp [kStream]) (by simp [kFilter]), item_ok (by decide) (by exact rfl) (by simp [kStream]) (by simp [kFilter]),
      item_ok (by decide) (Sure.seq.2 ?_) (by simp [kStream]) (by simp [kFilter])⟩
    intro o ho
    obtain ⟨w, -, rfl⟩ := List.mem_map.1 ho
    cases w with
    | first g => exact rfl
    | widths l =>
      refine Sure.seq.2 ?_
      intro o ho
      obtain ⟨x, -, rfl⟩ := List.mem_map.1 ho
      exact hn x
  · refine ⟨?_, ?_, ?_⟩
    · simp only [List.forall_mem_cons, List.not_mem_nil, false_implies, implies_true, and_true]
      exact ⟨fun _ => ⟨_, rfl, by decide, by exact rfl⟩, fun h => absurd rfl h⟩
    · intro st hs
      simp only [dget, kFilter, kStream, Key.str.injEq, List.cons.injEq, Char.reduceEq, false_and, if_false, reduceIte, Option.some.injEq] at hs
      subst hs
      rfl
    · intro f hf
      left
      simpa [dget, eq_comm] using hf
  · refine .plain ?_
    simp only [List.forall_mem_cons, List.not_mem_nil, false_implies, implies_true, and_true]
    exact ⟨item_ok (by decide) (by exact rfl) (by simp [kStream]) (by simp [kFilter]), item_ok (by decide) (by exact rfl) (by simp [kStream]) (by simp [kFilter]),
      item_ok (by decide) hname (by simp [kStream]) (by simp [kFilter]), item_ok (by decide) (by exact rfl) (by simp [kStream]) (by simp [kFilter]),
      item_ok (by decide) (by exact rfl) (by simp [kStream]) (by simp [kFilter]), item_ok (by decide) (by exact rfl) (by simp [kStream]) (by simp [kFilter])⟩

theorem addFontObj_fine {E : PdfEnv} (hE : E.Fine) {b b' : Base} (h : b.Fine) {f : Font} (hf : f.Ok) {id : Nat} (hg : addFontObj E.num E.files b f = .ok (id, b')) : b'.Fine := by
  unfold addFontObj at hg
  split at hg
  · rename_i base hb
    simp only [Except.ok.injEq] at hg
    have e := congrArg Prod.snd hg
    simp only at e
    rw [← e]
    refine h.add (.plain ?_)
    simp only [stdFontDict, List.forall_mem_cons, List.not_mem_nil, false_implies, implies_true, and_true]
    exact ⟨item_ok (by decide) (by exact rfl) (by simp [kStream]) (by simp [kFilter]), item_ok (by decide) (by exact rfl) (by simp [kStream]) (by simp [kFilter]),
      item_ok (by decide) (.name (hf.2 base hb)) (by simp [kStream]) (by simp [kFilter]), item_ok (by decide) (by exact rfl) (by simp [kStream]) (by simp [kFilter])⟩
  · split at hg
    · cases hg
    · rename_i t ht
      simp only [Except.ok.injEq] at hg
      have e := congrArg Prod.snd hg
      simp only at e
      rw [← e]
      exact addTTFont_fine hE.num h (hE.files _ t ht)

/-- all fonts of a document can be written -/
def Fonts.Ok (s : Fonts) : Prop := ∀ x ∈ s.fonts, ∀ y ∈ x.2, y.2.Ok

theorem pick_ok {s : Fonts} (h : s.Ok) {k : FKey} {f : Font} (hf : s.pick k = .ok f) : f.Ok := by
  unfold Fonts.pick at hf
  split at hf
  · cases hf
  · rename_i fam hfam
    have hm := h _ (dget_mem hfam)
    unfold pickMode at hf
    split at hf
    · rename_i g hg
      cases hf
      exact hm _ (dget_mem hg)
    · split at hf
      · rename_i g hg
        cases hf
        exact hm _ (dget_mem hg)
      · cases hf

theorem load_ok {files : FontFiles} {s s' : Fonts} (h : s.Ok) {path : Str} {k : FKey} (hl : s.load files path k = .ok s') : s'.Ok := by
  unfold Fonts.load at hl
  split at hl
  · cases hl
  · cases hl
    have hfont : (⟨fontRef s.index, .file path⟩ : Font).Ok := ⟨.ref _, by simp⟩
    intro x hx y hy
    rcases dget_dset_mem hx with rfl | hx
    · simp only at hy
      rcases dget_dset_mem hy with rfl | hy
      · exact hfont
      · split at hy
        · rename_i fam hfam
          exact h _ (dget_mem hfam) y hy
        · rw [List.mem_singleton.1 hy]; exact hfont
    · exact h x hx y hy

theorem getFont_ok {files : FontFiles} {p p' : FProc} {s s' : Fonts} (h : s.Ok) {k : FKey} {f : Font} (hg : s.getFont files p k = .ok (f, p', s')) : f.Ok ∧ s'.Ok := by
  have hmap : ∀ {t : Fonts} {q : FProc}, t.Ok → (t.pick k).map (·, q, t) = .ok (f, p', s') → f.Ok ∧ s'.Ok := by
    intro t q ht hm
    cases hp : t.pick k with
    | error e => rw [hp] at hm; cases hm
    | ok g => rw [hp] at hm; cases hm; exact ⟨pick_ok ht hp, ht⟩
  unfold Fonts.getFont at hg
  split at hg
  · exact hmap h hg
  · split at hg
    · cases hg
    · split at hg
      · exact hmap h hg
      · split at hg
        · cases hg
        · rename_i hl
          exact hmap (load_ok h hl) hg

theorem addOrGetFont_clean {E : PdfEnv} (hE : E.Fine) {p p' : FProc} {s s' : PdfT} (h : Clean s) {k : FKey} {r : Str × Nat}
    (hg : s.addOrGetFont E p k = .ok (r, p', s')) : Clean s' ∧ ResName r.1 := by
  unfold PdfT.addOrGetFont at hg
  split at hg
  · rename_i hu
    cases hg
    exact ⟨h, h.used _ (dget_mem hu)⟩
  · split at hg
    · cases hg
    · rename_i hf
      obtain ⟨h1, h2⟩ := getFont_ok h.fonts hf
      split at hg
      · cases hg
      · rename_i ha
        cases hg
        refine ⟨⟨addFontObj_fine hE h.base h1 ha, h2, ?_, h.pages, h.dests, h.outlines⟩, h1.1⟩
        intro u hu
        rcases dget_dset_mem hu with rfl | hu
        · exact h1.1
        · exact h.used u hu

theorem usedFonts_clean {E : PdfEnv} (hE : E.Fine) : ∀ (l : List FKey) {p p' : FProc} {s s' : PdfT}, Clean s → s.usedFonts E l p = .ok (p', s') → Clean s' := by
  intro l
  induction l with
  | nil => intro p p' s s' h hg; cases hg; exact h
  | cons k l ih =>
    intro p p' s s' h hg
    simp only [PdfT.usedFonts] at hg
    split at hg
    · cases hg
    · rename_i h1
      refine ih ?_ hg
      unfold PdfT.usedFont at h1
      split at h1
      · cases h1
      · rename_i hf
        obtain ⟨c, hr⟩ := addOrGetFont_clean hE h hf
        split at h1
        · cases h1
        · cases h1
          refine c.onPage fun q hq => ?_
          have := c.pages q hq
          refine ⟨?_, this.xres, this.annots⟩
          intro e he
          rcases dget_dset_mem he with rfl | he
          · exact hr
          · exact this.fonts e he

/-! ### Ids -/

theorem outlinesOk_append : ∀ (a b : List Outline), outlinesOk (a ++ b) ↔ outlinesOk a ∧ outlinesOk b
  | [], b => by simp [outlinesOk]
  | o :: a, b => by simp only [List.cons_append, outlinesOk, outlinesOk_append a b, and_assoc]

theorem insertDown_ok {item : Outline} (hi : outlineOk item) : ∀ (k : Nat) {l l' : List Outline}, outlinesOk l → insertDown item k l = .ok l' → outlinesOk l'
  | 0, l, l', hl, h => by
    simp only [insertDown] at h
    cases h
    rw [outlinesOk_append]
    exact ⟨hl, hi, trivial⟩
  | k + 1, l, l', hl, h => by
    simp only [insertDown] at h
    split at h
    · cases h
    · rename_i t lb ch hlast
      have e := List.dropLast_append_getLast? _ hlast
      rw [← e, outlinesOk_append] at hl
      obtain ⟨h1, ⟨h2, h3, h4⟩, -⟩ := hl
      split at h
      · cases h
      · rename_i ch' hc
        cases h
        rw [outlinesOk_append]
        exact ⟨h1, ⟨h2, h3, insertDown_ok hi k h4 hc⟩, trivial⟩

theorem addId_clean {E : PdfEnv} {s s' : PdfT} (h : Clean s) {page : Page} {x y : Rat} {id : Str} {rects : List IdRect} (hid : rects ≠ [] → idWritable E.json id)
    (hg : s.addId E page x y id rects = .ok s') : Clean s' := by
  unfold PdfT.addId at hg
  split at hg
  · cases hg; exact h
  · rename_i d t
    obtain ⟨w1, w2⟩ := hid (by simp)
    have e1 : (c!"$label:" : Str).length = 7 := rfl
    have e2 : (c!"$ref:" : Str).length = 5 := rfl
    have e3 : (c!"$uri:" : Str).length = 5 := rfl
    have e4 : (c!"$outline:" : Str).length = 9 := rfl
    simp only [afterPrefix_eq] at hg
    by_cases k1 : List.isPrefixOf c!"$label:" id = true
    · have hk : idKind id = .label (id.drop 7) := by unfold idKind; rw [if_pos k1]
      rw [if_pos k1, e1] at hg
      simp only at hg
      unfold PdfT.addLabel at hg
      split at hg
      · cases hg
      · cases hg
        refine ⟨h.base, h.fonts, h.used, h.pages, ?_, h.outlines⟩
        intro e he
        rcases dget_dset_mem he with rfl | he
        · exact w1 _ (.inl hk)
        · exact h.dests e he
    · rw [if_neg k1] at hg
      simp only at hg
      by_cases k2 : List.isPrefixOf c!"$ref:" id = true
      · have hk : idKind id = .ref (id.drop 5) := by unfold idKind; rw [if_neg k1, if_pos k2]
        rw [if_pos k2, e2] at hg
        cases hg
        refine h.onPage fun p hp => ?_
        have hp' := h.pages p hp
        have : ∀ (l : List IdRect) (p : Page), p.Ok → (l.foldl (fun p r => p.addAnnot (.dest (id.drop 5) (placeRect E.rnd x y r))) p).Ok := by
          intro l
          induction l with
          | nil => intro p h; exact h
          | cons r l ih =>
            intro p h
            refine ih _ ⟨h.fonts, h.xres, ?_⟩
            intro name r' hm
            rcases List.mem_append.1 hm with hm | hm
            · exact h.annots name r' hm
            · cases List.mem_singleton.1 hm
              exact w1 _ (.inr (.inl hk))
        exact this _ _ hp'
      · rw [if_neg k2] at hg
        simp only at hg
        by_cases k3 : List.isPrefixOf c!"$uri:" id = true
        · have hk : idKind id = .uri (id.drop 5) := by unfold idKind; rw [if_neg k1, if_neg k2, if_pos k3]
          rw [if_pos k3, e3] at hg
          cases hg
          have hs := w1 _ (.inr (.inr hk))
          have hu : Clean (s.uriId (id.drop 5)).2 := by
            unfold PdfT.uriId
            split
            · exact h
            · refine ⟨h.base.add (.plain ?_), h.fonts, h.used, h.pages, h.dests, h.outlines⟩
              simp only [List.forall_mem_cons, List.not_mem_nil, false_implies, implies_true, and_true]
              exact ⟨item_ok (by decide) (by exact rfl) (by simp [kStream]) (by simp [kFilter]), item_ok (by decide) (by exact rfl) (by simp [kStream]) (by simp [kFilter]),
                item_ok (by decide) (.str hs) (by simp [kStream]) (by simp [kFilter])⟩
          unfold PdfT.addUris
          simp only
          refine hu.onPage fun p hp => ?_
          have hp' := hu.pages p hp
          have : ∀ (l : List IdRect) (n : Nat) (p : Page), p.Ok → (l.foldl (fun p r => p.addAnnot (.link n (placeRect E.rnd x y r))) p).Ok := by
            intro l n
            induction l with
            | nil => intro p h; exact h
            | cons r l ih =>
              intro p h
              refine ih _ ⟨h.fonts, h.xres, ?_⟩
              intro name r' hm
              rcases List.mem_append.1 hm with hm | hm
              · exact h.annots name r' hm
              · cases List.mem_singleton.1 hm
          exact this _ _ _ hp'
        · rw [if_neg k3] at hg
          simp only at hg
          by_cases k4 : List.isPrefixOf c!"$outline:" id = true
          · rw [if_pos k4, e4] at hg
            have ho : outlineData id = some (id.drop 9) := by unfold outlineData; rw [if_pos k4]
            simp only at hg
            unfold PdfT.addOutline at hg
            split at hg
            · cases hg
            · rename_i hj
              obtain ⟨t1, t2⟩ := w2 _ _ _ _ ho hj
              split at hg
              · cases hg
              · rename_i hins
                cases hg
                exact ⟨h.base, h.fonts, h.used, h.pages, h.dests, insertDown_ok (item := .node _ _ []) ⟨t1, t2, trivial⟩ _ h.outlines hins⟩
          · rw [if_neg k4] at hg
            cases hg; exact h

theorem addIds_clean {E : PdfEnv} {page : Page} {x y : Rat} : ∀ (l : List (Str × List IdRect)) {s s' : PdfT}, Clean s →
    (∀ q ∈ l, q.2 ≠ [] → idWritable E.json q.1) → s.addIds E page x y l = .ok s' → Clean s' := by
  intro l
  induction l with
  | nil => intro s s' h _ hg; cases hg; exact h
  | cons a l ih =>
    intro s s' h hl hg
    obtain ⟨id, rects⟩ := a
    simp only [PdfT.addIds] at hg
    split at hg
    · cases hg
    · rename_i h1
      exact ih (addId_clean h (hl (id, rects) List.mem_cons_self) h1) (fun q hq => hl q (List.mem_cons_of_mem _ hq)) hg

/-! ### Operations -/

theorem addStr_clean {p p' : Page} (h : p.Ok) {t : Str} {n : Nat} (hg : p.addStr t = .ok (n, p')) : p'.Ok := by
  unfold Page.addStr at hg
  split at hg
  · cases hg; exact ⟨h.fonts, h.xres, h.annots⟩
  · cases hg

theorem movePage_ok {p : Page} (h : p.Ok) (move : Str) (w l : Rat) : (movePage move w l p).Ok := by
  unfold movePage
  simp only
  split <;> split <;> exact ⟨h.fonts, h.xres, h.annots⟩

theorem addText_clean {E : PdfEnv} (hE : E.Fine) {F : NumFmt} {p p' : FProc} {s s' : PdfT} (h : Clean s) {x y width height : Rat} {text graphics : Str}
    {used : List FKey} {ids : List (Str × List IdRect)} {move : Str} (hids : ∀ q ∈ ids, q.2 ≠ [] → idWritable E.json q.1)
    (hg : s.addText E F p x y width height text graphics used ids move = .ok (p', s')) : Clean s' := by
  unfold PdfT.addText at hg
  split at hg
  · cases hg
  · rename_i page hpage
    split at hg
    · cases hg
    · rename_i hstr
      split at hg
      · cases hg
      · rename_i hu
        split at hg
        · cases hg
        · rename_i hi
          cases hg
          have h1 := h.onPage (f := fun _ => _) fun _ _ => addStr_clean (h.pages _ (List.mem_of_getElem? hpage)) hstr
          have h2 := addIds_clean _ (usedFonts_clean hE _ h1 hu) hids hi
          exact h2.onPage fun q hq => movePage_ok (h2.pages q hq) _ _ _

theorem addImage_clean {F : NumFmt} {s s' : PdfD} (h : Clean s.doc) {im : PImg} (him : dictWritable im.obj = true) {x y w l : Option Rat} {move : Str}
    (hg : s.addImage F im x y w l move = .ok s') : Clean s'.doc := by
  have h0 : Clean (s.imageObj im).2.doc := by
    unfold PdfD.imageObj
    split
    · exact h
    · exact ⟨h.base.add ((fine_iff _).1 him), h.fonts, h.used, h.pages, h.dests, h.outlines⟩
  unfold PdfD.addImage at hg
  simp only at hg
  split at hg
  · cases hg
  · rename_i page hpage
    have hp := h0.pages _ (List.mem_of_getElem? hpage)
    split at hg
    · cases hg
    · split at hg
      · cases hg
      · rename_i q hq
        cases hg
        refine h0.onPage fun _ _ => movePage_ok ?_ _ _ _
        unfold Page.addImage at hq
        simp only at hq
        split at hq
        · cases hq
        · split at hq
          · rename_i hr
            cases hq
            refine addStr_clean ?_ hr
            unfold Page.registerImage
            split
            · exact ⟨hp.fonts, hp.xres, hp.annots⟩
            · refine ⟨hp.fonts, ?_, hp.annots⟩
              intro e he
              rcases dget_dset_mem he with rfl | he
              · exact .im _
              · exact hp.xres e he
          · cases hq

/-- the ids and images of a part can be written -/
def PdfPart.Ok (json : Str → Option (Int × Str × Str)) : PdfPart → Prop
  | .paragraph _ _ _ _ _ _ _ ids => ∀ q ∈ ids, q.2 ≠ [] → idWritable json q.1
  | .image im _ _ _ _ => dictWritable im.obj = true

theorem addParts_clean {E : PdfEnv} (hE : E.Fine) {F : NumFmt} : ∀ (l : List PdfPart) {p p' : FProc} {s s' : PdfD}, Clean s.doc → (∀ q ∈ l, q.Ok E.json) →
    s.addParts E F l p = .ok (p', s') → Clean s'.doc := by
  intro l
  induction l with
  | nil => intro p p' s s' h _ hg; cases hg; exact h
  | cons a l ih =>
    intro p p' s s' h hl hg
    simp only [PdfD.addParts] at hg
    split at hg
    · cases hg
    · rename_i r hr
      refine ih ?_ (fun q hq => hl q (List.mem_cons_of_mem _ hq)) hg
      have ha := hl a List.mem_cons_self
      cases a with
      | paragraph x y width height text graphics used ids =>
        simp only [PdfD.addPart] at hr
        cases ht : s.doc.addText E F p x y width height text graphics used ids c!"bottom" with
        | error e => rw [ht] at hr; cases hr
        | ok t => rw [ht] at hr; cases hr; exact addText_clean hE h ha ht
      | image im x y width height =>
        simp only [PdfD.addPart] at hr
        cases ht : s.addImage F im (some x) (some y) (some width) (some height) c!"bottom" with
        | error e => rw [ht] at hr; cases hr
        | ok t => rw [ht] at hr; cases hr; exact addImage_clean h ha ht

theorem addBox_clean {E : PdfEnv} (hE : E.Fine) {F : NumFmt} {p p' : FProc} {s s' : PdfD} (h : Clean s.doc) {b : BoxOut} (hb : ∀ q ∈ b.parts, q.Ok E.json) {width : Rat} {move : Str}
    (hg : s.addBox E F p b width move = .ok (p', s')) : Clean s'.doc := by
  unfold PdfD.addBox at hg
  split at hg
  · cases hg
  · rename_i s1 h1
    split at hg
    · cases hg
    · rename_i r hr
      cases hg
      have hs1 : Clean s1.doc := by
        unfold PdfD.addGraphics at h1
        split at h1
        · cases h1
        · split at h1
          · cases h1
          · rename_i hpage
            split at h1
            · cases h1
            · rename_i t ht
              cases h1
              exact h.onPage fun _ _ => addStr_clean (h.pages _ (List.mem_of_getElem? hpage)) ht
      have h2 := addParts_clean hE _ hs1 hb hr
      exact h2.onPage fun q hq => movePage_ok (h2.pages q hq) _ _ _

theorem addPage_clean {s : PdfT} (h : Clean s) (w l top bottom left right : Rat) : Clean (s.addPage w l top bottom left right) := by
  refine ⟨(h.base.add ?_).add (.plain ?_), h.fonts, h.used, ?_, h.dests, h.outlines⟩
  · refine ⟨?_, ?_, ?_⟩
    · simp only [List.forall_mem_cons, List.not_mem_nil, false_implies, implies_true, and_true]
      exact ⟨fun _ => ⟨_, rfl, by decide, by exact rfl⟩, fun h => absurd rfl h⟩
    · intro st hs
      simp only [dget, kFilter, kStream, Key.str.injEq, List.cons.injEq, Char.reduceEq, false_and, if_false, reduceIte, Option.some.injEq] at hs
      subst hs
      rfl
    · intro f hf
      left
      simpa [dget, eq_comm] using hf
  · simp only [List.forall_mem_cons, List.not_mem_nil, false_implies, implies_true, and_true]
    exact ⟨item_ok (by decide) (by exact rfl) (by simp [kStream]) (by simp [kFilter]), item_ok (by decide) (by exact rfl) (by simp [kStream]) (by simp [kFilter]),
      item_ok (by decide) (by exact rfl) (by simp [kStream]) (by simp [kFilter])⟩
  · intro p hp
    rcases List.mem_append.1 hp with hp | hp
    · exact h.pages p hp
    · rw [List.mem_singleton.1 hp]
      exact ⟨by simp [Page.new, Page.goToBeginning], by simp [Page.new, Page.goToBeginning], by simp [Page.new, Page.goToBeginning]⟩

theorem fontsNew_ok : Fonts.new.Ok := by
  have : ∀ x ∈ Fonts.new.fonts, ∀ y ∈ x.2, (nameChars y.2.ref && decide (y.2.ref ≠ c!"__stream__") && match y.2.face with | .std b => nameChars b | .file _ => true) = true := by
    decide +kernel
  intro x hx y hy
  have h := this x hx y hy
  simp only [Bool.and_eq_true, decide_eq_true_eq] at h
  refine ⟨⟨h.1.1, fun e => h.1.2 (Key.str.inj e)⟩, ?_⟩
  intro base hb
  have := h.2
  rw [hb] at this
  exact this

theorem new_clean {E : PdfEnv} (hE : E.Fine) {p p' : FProc} {version : Str} (hv : version.all isLatin = true) {s : PdfT} (hg : PdfT.new E p version = .ok (p', s)) : Clean s := by
  have h0 : Clean (PdfT.init version) := by
    refine ⟨⟨rfl, hv, ?_⟩, fontsNew_ok, by simp [PdfT.init], by simp [PdfT.init], by simp [PdfT.init], trivial⟩
    intro n h0 hn
    have : n = 1 := by
      have : (PdfT.init version).base.count = 2 := rfl
      omega
    subst this
    refine ⟨freshCatalog, rfl, .plain ?_⟩
    simp only [freshCatalog, List.forall_mem_cons, List.not_mem_nil, false_implies, implies_true, and_true]
    exact item_ok (by decide) (by exact rfl) (by simp [kStream]) (by simp [kFilter])
  unfold PdfT.new at hg
  cases hf : (PdfT.init version).addOrGetFont E p (c!"Helvetica", c!"n") with
  | error e => rw [hf] at hg; cases hg
  | ok r =>
    rw [hf] at hg
    cases hg
    exact (addOrGetFont_clean hE h0 hf).1

/-! ### The version -/

theorem Ext.version {b b' : Base} (h : Ext b b') : b'.version = b.version := by
  obtain ⟨l, rfl⟩ := h
  induction l generalizing b with
  | nil => rfl
  | cons d l ih => exact ih

theorem addId_version {E : PdfEnv} {s s' : PdfT} {page : Page} {x y : Rat} {id : Str} {rects : List IdRect} (hg : s.addId E page x y id rects = .ok s') :
    s'.base.version = s.base.version := by
  unfold PdfT.addId at hg
  split at hg
  · cases hg; rfl
  · split at hg
    · unfold PdfT.addLabel at hg
      split at hg
      · cases hg
      · cases hg; rfl
    · split at hg
      · cases hg; rfl
      · split at hg
        · cases hg
          unfold PdfT.addUris PdfT.uriId
          simp only
          split <;> rfl
        · split at hg
          · unfold PdfT.addOutline at hg
            split at hg
            · cases hg
            · split at hg
              · cases hg
              · cases hg; rfl
          · cases hg; rfl

theorem addIds_version {E : PdfEnv} {page : Page} {x y : Rat} : ∀ (l : List (Str × List IdRect)) {s s' : PdfT}, s.addIds E page x y l = .ok s' →
    s'.base.version = s.base.version := by
  intro l
  induction l with
  | nil => intro s s' hg; cases hg; rfl
  | cons a l ih =>
    intro s s' hg
    obtain ⟨id, rects⟩ := a
    simp only [PdfT.addIds] at hg
    split at hg
    · cases hg
    · rename_i h1
      rw [ih hg, addId_version h1]

theorem addText_version {E : PdfEnv} {F : NumFmt} {p p' : FProc} {s s' : PdfT} {x y width height : Rat} {text graphics : Str}
    {used : List FKey} {ids : List (Str × List IdRect)} {move : Str}
    (hg : s.addText E F p x y width height text graphics used ids move = .ok (p', s')) : s'.base.version = s.base.version := by
  unfold PdfT.addText at hg
  split at hg
  · cases hg
  · split at hg
    · cases hg
    · split at hg
      · cases hg
      · rename_i hu
        split at hg
        · cases hg
        · rename_i hi
          cases hg
          exact (addIds_version _ hi).trans (usedFonts_hush _ hu).ext.version

theorem addImage_version {F : NumFmt} {s s' : PdfD} {im : PImg} {x y w l : Option Rat} {move : Str} (hg : s.addImage F im x y w l move = .ok s') :
    s'.doc.base.version = s.doc.base.version := by
  unfold PdfD.addImage at hg
  simp only at hg
  split at hg
  · cases hg
  · split at hg
    · cases hg
    · split at hg
      · cases hg
      · cases hg
        exact (imageObj_hush s im).ext.version

theorem new_version {E : PdfEnv} {p p' : FProc} {version : Str} {s : PdfT} (hg : PdfT.new E p version = .ok (p', s)) : s.base.version = version := by
  unfold PdfT.new at hg
  cases hf : (PdfT.init version).addOrGetFont E p (c!"Helvetica", c!"n") with
  | error e => rw [hf] at hg; cases hg
  | ok r =>
    rw [hf] at hg
    cases hg
    exact (addOrGetFont_hush hf).ext.version

/-- one page is changed, but not what it refers to -/
theorem Clean.setPage {s : PdfT} (h : Clean s) {pg pg' : Page} (hp : s.pages[s.pageIndex]? = some pg) (h1 : pg'.annots = pg.annots) (h2 : pg'.xres = pg.xres)
    (h3 : pg'.fonts = pg.fonts) : Clean (s.onPage fun _ => pg') := by
  refine h.onPage fun _ _ => ?_
  obtain ⟨a, b, c⟩ := h.pages _ (List.mem_of_getElem? hp)
  exact ⟨h3 ▸ a, h2 ▸ b, h1 ▸ c⟩

end Verif
