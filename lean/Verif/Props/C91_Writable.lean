import Verif.Lemmas.WritableDoc
import Verif.Props.C65_Operations
/-! C91: a document made from values that can be written has a file, and the file can be read. -/
namespace Verif
open Spec

theorem op_clean {E : PdfEnv} (hE : E.Fine) {F : NumFmt} {p p' : FProc} {s s' : PdfD} (h : Clean s.doc) {o : PdfOp} {i : Nat}
    (hids : ∀ q ∈ opPlaces i o, ∀ id ∈ q.ids, id.2 ≠ [] → idWritable E.json id.1) (him : ∀ im ∈ docImages [o], dictWritable im.obj = true)
    (hg : s.op E F p o = .ok (p', s')) : Clean s'.doc := by
  cases o with
  | page a b c d e f => cases hg; exact addPage_clean h _ _ _ _ _ _
  | text x y width height text graphics used ids move =>
    simp only [PdfD.op] at hg
    cases ht : s.doc.addText E F p x y width height text graphics used ids move with
    | error e => rw [ht] at hg; cases hg
    | ok t =>
      rw [ht] at hg; cases hg
      exact addText_clean hE h (hids _ (List.mem_singleton.2 rfl)) ht
  | image im x y width height move =>
    simp only [PdfD.op] at hg
    cases ht : s.addImage F im x y width height move with
    | error e => rw [ht] at hg; cases hg
    | ok t => rw [ht] at hg; cases hg; exact addImage_clean h (him im (by simp [docImages])) ht
  | box b width move =>
    refine addBox_clean hE h ?_ hg
    intro q hq
    cases q with
    | paragraph x y width height text graphics used ids =>
      exact hids ⟨i, x, y, ids⟩ (List.mem_filterMap.2 ⟨_, hq, rfl⟩)
    | image im x y width height =>
      refine him im ?_
      simp only [docImages, List.append_nil]
      exact List.mem_filterMap.2 ⟨_, hq, rfl⟩

theorem docImages_cons (o : PdfOp) (l : List PdfOp) : docImages (o :: l) = docImages [o] ++ docImages l := by
  cases o <;> simp [docImages]

theorem ops_clean {E : PdfEnv} (hE : E.Fine) {F : NumFmt} : ∀ (l : List PdfOp) (n : Nat) {r r' : FProc × PdfD}, Clean r.2.doc →
    (∀ q ∈ docPlaces n l, ∀ id ∈ q.ids, id.2 ≠ [] → idWritable E.json id.1) → (∀ im ∈ docImages l, dictWritable im.obj = true) →
    PdfD.ops E F l r = .ok r' → Clean r'.2.doc := by
  intro l
  induction l with
  | nil => intro n r r' h _ _ hg; cases hg; exact h
  | cons o l ih =>
    intro n r r' h hids him hg
    simp only [PdfD.ops] at hg
    rw [docImages_cons] at him
    split at hg
    · cases hg
    · rename_i h1
      have him1 : ∀ im ∈ docImages [o], dictWritable im.obj = true := fun im hm => him im (List.mem_append_left _ hm)
      have him2 : ∀ im ∈ docImages l, dictWritable im.obj = true := fun im hm => him im (List.mem_append_right _ hm)
      cases o with
      | page a b c d e f => exact ih (n + 1) (op_clean hE (i := n) h (by simp [opPlaces]) him1 h1) hids him2 hg
      | text x y width height text graphics used ids move =>
        exact ih n (op_clean hE (i := n - 1) h (fun q hq => hids q (List.mem_append_left _ hq)) him1 h1) (fun q hq => hids q (List.mem_append_right _ hq)) him2 hg
      | image im x y width height move =>
        exact ih n (op_clean hE (i := n - 1) h (fun q hq => hids q (List.mem_append_left _ hq)) him1 h1) (fun q hq => hids q (List.mem_append_right _ hq)) him2 hg
      | box b width move =>
        exact ih n (op_clean hE (i := n - 1) h (fun q hq => hids q (List.mem_append_left _ hq)) him1 h1) (fun q hq => hids q (List.mem_append_right _ hq)) him2 hg

theorem history_clean {E : PdfEnv} (hE : E.Fine) {F : NumFmt} {p p' : FProc} {version : Str} (hv : version.all isLatin = true) {ops : List PdfOp} {s : PdfD}
    (hids : ∀ q ∈ docPlaces 0 ops, ∀ id ∈ q.ids, id.2 ≠ [] → idWritable E.json id.1) (him : ∀ im ∈ docImages ops, dictWritable im.obj = true)
    (hg : PdfD.history E F p version ops = .ok (p', s)) : Clean s.doc := by
  unfold PdfD.history at hg
  split at hg
  · cases hg
  · rename_i hn
    exact ops_clean hE ops 0 (r' := (p', s)) (new_clean hE hv hn) hids him hg

/-- a document that holds only what can be written is written -/
theorem clean_writes {num : Rat → Obj} (hn : ∀ x, Sure (num x)) {s : PdfT} (h : Clean s) (hout : OutInv s) (hne : s.pages ≠ []) (level : Int) :
    ∃ b, s.withTrees num level = .ok b ∧ (∀ o ∈ b.content, readable o.value = true) ∧
      ∀ flate u1 u2, (60 ∉ u1 ∧ 62 ∉ u1) → (60 ∉ u2 ∧ 62 ∉ u2) → (b.output flate u1 u2).err = none := by
  obtain ⟨b, hb, ht⟩ := trees_ok (num := num) (level := level) hout hne
  have hf := trees_fine hn h hb
  have htr : b.trailer = [(.str c!"Root", .ref 1)] := ht.trailer
  exact ⟨b, hb, (hf.writes htr id (u1 := []) (u2 := []) (by simp) (by simp)).1, fun flate u1 u2 h1 h2 => (hf.writes htr flate h1 h2).2⟩

/-! ### How many pages there are -/

theorem addText_len {E : PdfEnv} {F : NumFmt} {p p' : FProc} {s s' : PdfT} {x y width height : Rat} {text graphics : Str}
    {used : List FKey} {ids : List (Str × List IdRect)} {move : Str}
    (h : s.addText E F p x y width height text graphics used ids move = .ok (p', s')) : s'.pages.length = s.pages.length :=
  (pages_info (addText_stirs h).pages).2.1

theorem addImage_len {F : NumFmt} {s s' : PdfD} {im : PImg} {x y w l : Option Rat} {move : Str} (hg : s.addImage F im x y w l move = .ok s') :
    s'.doc.pages.length = s.doc.pages.length := by
  have h0 : (s.imageObj im).2.doc.pages = s.doc.pages := by
    unfold PdfD.imageObj
    split <;> rfl
  unfold PdfD.addImage at hg
  simp only at hg
  split at hg
  · cases hg
  · split at hg
    · cases hg
    · split at hg
      · cases hg
      · cases hg
        show (List.modify _ _ _).length = _
        rw [List.length_modify, h0]

theorem addParts_len {E : PdfEnv} {F : NumFmt} : ∀ (l : List PdfPart) {p p' : FProc} {s s' : PdfD}, s.addParts E F l p = .ok (p', s') →
    s'.doc.pages.length = s.doc.pages.length := by
  intro l
  induction l with
  | nil => intro p p' s s' h; cases h; rfl
  | cons a l ih =>
    intro p p' s s' h
    simp only [PdfD.addParts] at h
    split at h
    · cases h
    · rename_i r hr
      rw [ih h]
      cases a with
      | paragraph x y width height text graphics used ids =>
        simp only [PdfD.addPart] at hr
        cases ht : s.doc.addText E F p x y width height text graphics used ids c!"bottom" with
        | error e => rw [ht] at hr; cases hr
        | ok t => rw [ht] at hr; cases hr; exact addText_len ht
      | image im x y width height =>
        simp only [PdfD.addPart] at hr
        cases ht : s.addImage F im (some x) (some y) (some width) (some height) c!"bottom" with
        | error e => rw [ht] at hr; cases hr
        | ok t => rw [ht] at hr; cases hr; exact addImage_len ht

theorem ops_len {E : PdfEnv} {F : NumFmt} : ∀ (l : List PdfOp) {r r' : FProc × PdfD}, PdfD.ops E F l r = .ok r' →
    r'.2.doc.pages.length = r.2.doc.pages.length + (docSizes l).length := by
  intro l
  induction l with
  | nil => intro r r' h; cases h; rfl
  | cons o l ih =>
    intro r r' h
    simp only [PdfD.ops] at h
    split at h
    · cases h
    · rename_i q hq
      rw [ih h]
      cases o with
      | page a b c d e f =>
        cases hq
        simp [docSizes, PdfT.addPage]
        omega
      | text x y width height text graphics used ids move =>
        simp only [PdfD.op] at hq
        cases ht : r.2.doc.addText E F r.1 x y width height text graphics used ids move with
        | error e => rw [ht] at hq; cases hq
        | ok t => rw [ht] at hq; cases hq; rw [addText_len ht]; rfl
      | image im x y width height move =>
        simp only [PdfD.op] at hq
        cases ht : r.2.addImage F im x y width height move with
        | error e => rw [ht] at hq; cases hq
        | ok t => rw [ht] at hq; cases hq; rw [addImage_len ht]; rfl
      | box b width move =>
        simp only [docSizes, Nat.add_right_cancel_iff]
        simp only [PdfD.op, PdfD.addBox] at hq
        split at hq
        · cases hq
        · rename_i s1 h1
          split at hq
          · cases hq
          · rename_i t ht
            cases hq
            show (List.modify _ _ _).length = _
            rw [List.length_modify, addParts_len _ ht]
            unfold PdfD.addGraphics at h1
            split at h1
            · cases h1
            · split at h1
              · cases h1
              · split at h1
                · cases h1
                · cases h1
                  exact List.length_modify ..

theorem history_pages {E : PdfEnv} {F : NumFmt} {p p' : FProc} {version : Str} {ops : List PdfOp} {s : PdfD}
    (h : PdfD.history E F p version ops = .ok (p', s)) (hne : docSizes ops ≠ []) : s.doc.pages ≠ [] := by
  unfold PdfD.history at h
  split at h
  · cases h
  · have := ops_len ops (r' := (p', s)) h
    simp only at this
    intro e
    rw [e] at this
    have h2 := List.length_pos_iff.2 hne
    simp only [List.length_nil] at this
    omega

/-! ### The property -/

/-- **C91.** A document of at least one page whose labels, targets, addresses and titles are latin-1 without backslash and carriage
return, and whose images, fonts and numbers can be written, has a file: `output` does not fail, and every object of the document stands
for a PDF object. -/
theorem C91_writable {E : PdfEnv} (hnum : ∀ x, (meaning (E.num x)).isSome = true)
    (hfiles : ∀ path t, E.files path = some t → fontWritable t.name t.descriptor) {F : NumFmt} {p p' : FProc} {version : Str} (hv : (version.all fun c => decide (c.toNat < 256)) = true)
    {ops : List PdfOp} {s : PdfD} (hist : PdfD.history E F p version ops = .ok (p', s)) (hpages : docSizes ops ≠ [])
    (hids : ∀ q ∈ docPlaces 0 ops, ∀ id ∈ q.ids, id.2 ≠ [] → idWritable E.json id.1) (him : ∀ im ∈ docImages ops, dictWritable im.obj = true)
    (level : Int) (flate : Bytes → Bytes) (u1 u2 : Bytes) (hu1 : 60 ∉ u1 ∧ 62 ∉ u1) (hu2 : 60 ∉ u2 ∧ 62 ∉ u2) :
    ∃ b, s.doc.withTrees E.num level = .ok b ∧ s.doc.output E.num level flate u1 u2 = .ok (b.output flate u1 u2) ∧
      (b.output flate u1 u2).err = none ∧ ∀ o ∈ b.content, readable o.value = true := by
  have hE : E.Fine := ⟨hnum, hfiles⟩
  have hv' : version.all isLatin = true := hv
  have hout := history_inv hist
  obtain ⟨b, h1, h2, h3⟩ := clean_writes hnum (history_clean hE hv' hids him hist) (history_inv hist) (history_pages hist hpages) level
  exact ⟨b, h1, by rw [PdfT.output, h1]; rfl, h3 flate u1 u2 hu1 hu2, h2⟩

/-- **C91.** Such a document can be read: what C65 says of its file needs no other condition than that the file has less than 10^10 bytes
(the positions of the objects are written with ten digits) and that no image is made to look like the action of a link. -/
theorem C91_read {E : PdfEnv} (hnum : ∀ x, (meaning (E.num x)).isSome = true)
    (hfiles : ∀ path t, E.files path = some t → fontWritable t.name t.descriptor) {F : NumFmt} {p p' : FProc} {version : Str} (hv : (version.all fun c => decide (c.toNat < 256)) = true)
    {ops : List PdfOp} {s : PdfD} (hist : PdfD.history E F p version ops = .ok (p', s)) (hpages : docSizes ops ≠ [])
    (hids : ∀ q ∈ docPlaces 0 ops, ∀ id ∈ q.ids, id.2 ≠ [] → idWritable E.json id.1)
    (him : ∀ im ∈ docImages ops, dictWritable im.obj = true ∧ dget (.str c!"Type") im.obj ≠ some (.bytes b!"/Action"))
    (level : Int) (flate : Bytes → Bytes) (u1 u2 : Bytes) (hu1 : 60 ∉ u1 ∧ 62 ∉ u1) (hu2 : 60 ∉ u2 ∧ 62 ∉ u2) :
    ∃ file, (s.doc.output E.num level flate u1 u2).map (fun r => (r.written, r.err)) = .ok (file, none) ∧ (file.length < 10 ^ 10 →
    ∃ R N ids, openFile file = some R ∧ ids.length = (docSizes ops).length ∧
      (∀ depth, N ≤ depth → R.pages depth = some ids) ∧
      (∀ (i id : Nat), ids[i]? = some id → ∃ D width height w h ls, R.dict id = some D ∧
        (docSizes ops)[i]? = some (width, height) ∧ meaning (E.num width) = some w ∧ meaning (E.num height) = some h ∧
        Spec.lookup b!"MediaBox" D = some (.arr [.int 0, .int 0, w, h]) ∧
        R.links D = some ls ∧ List.Forall₂ (LinkMeets E.num) (linksOn E.rnd i (docPlaces 0 ops)) ls) ∧
      (∀ depth, N ≤ depth → ∀ label : Str, (label.all fun c => decide (c.toNat < 256)) = true →
        match (spotsOf E.rnd (fun i => (((docSizes ops)[i]?).map Prod.fst).getD 0) label (docPlaces 0 ops)).getLast? with
        | none => R.dest depth (latinBytes label) = none
        | some (i, x, y, zoom) => ∃ id mx my mz, ids[i]? = some id ∧ meaning (E.num x) = some mx ∧ meaning (E.num y) = some my ∧
            meaning (E.num zoom) = some mz ∧ R.dest depth (latinBytes label) = some (.arr [.ref id 0, .name b!"XYZ", mx, my, mz])) ∧
      ∀ depth, N ≤ depth → ∃ o, R.outline depth = some o ∧
        Bookmark.allItems 1 o = (outlinesOf E.json (docPlaces 0 ops)).map fun x => (outlineLevel x.1, latinBytes x.2.1, latinBytes x.2.2)) := by
  obtain ⟨b, h1, h2, h3, h4⟩ := C91_writable hnum hfiles hv hist hpages hids (fun im h => (him im h).1) level flate u1 u2 hu1 hu2
  refine ⟨(b.output flate u1 u2).written, ?_, ?_⟩
  · rw [h2]
    simp only [Except.map, h3]
  · intro hs
    exact C65_operations hist (fun im h => (him im h).2) h1 h4 flate u1 u2 h3 hs hu1 hu2

/-! ### Examples -/

/-- an environment without font files -/
def ex91E : PdfEnv := ⟨fun _ => none, fun x => .int x.num, fun _ => some (1, c!"Title", c!"l"), id⟩

/-- two pages with a link, a label, a reference, an item of the outline and an image -/
def ex91Ops (uri : Str) : List PdfOp :=
  [.page 100 200 10 10 10 10,
   .text 10 20 50 10 c!" (x)Tj" [] [(c!"Times", c!"b")] [(c!"$uri:" ++ uri, [(1, 2, 3, 4)]), (c!"$label:l", [(1, 2, 3, 4)])] c!"bottom",
   .page 300 400 10 10 10 10,
   .box ⟨[], [], [.paragraph 10 30 50 10 c!" (y)Tj" [] [] [(c!"$ref:l", [(1, 2, 3, 4)]), (c!"$outline:x", [(1, 2, 3, 4)])],
     .image ⟨c!"a", 2, 3, [(.str c!"Type", .bytes b!"/XObject"), (.str c!"Filter", .bytes b!"/DCTDecode"), (.str c!"__skip_filter__", .bool true), (.str c!"__stream__", .bytes b!"xyz")]⟩ 1 2 3 4], 10⟩ 50 c!"bottom"]

/-- the values of the example can be written -/
example : ∀ q ∈ docPlaces 0 (ex91Ops c!"http://a"), ∀ id ∈ q.ids, id.2 ≠ [] → idWritable ex91E.json id.1 := by
  have : ∀ q ∈ docPlaces 0 (ex91Ops c!"http://a"), ∀ id ∈ q.ids, (match idKind id.1 with
      | .label n => stringChars n
      | .ref n => stringChars n
      | .uri n => stringChars n
      | .other => true) = true := by decide +kernel
  intro q hq id hid _
  have h := this q hq id hid
  refine ⟨?_, ?_⟩
  · rintro name (e | e | e) <;> rw [e] at h <;> exact h
  · intro data level title label _ hj
    cases hj
    exact ⟨rfl, rfl⟩
example : ∀ im ∈ docImages (ex91Ops c!"http://a"), dictWritable im.obj = true ∧ dget (.str c!"Type") im.obj ≠ some (.bytes b!"/Action") := by
  intro im h
  rw [List.mem_singleton.1 h]
  exact ⟨by decide +kernel, by simp [dget]⟩
example : docSizes (ex91Ops c!"http://a") = [(100, 200), (300, 400)] := rfl

/-- the error of `output` -/
def ex91Err (uri : Str) : Option (Option PyErr) :=
  match PdfD.history ex91E sampleFmt ⟨[], []⟩ c!"1.5" (ex91Ops uri) with
  | .error _ => none
  | .ok r => match r.2.doc.output ex91E.num 1 id b!"00" b!"11" with
    | .error _ => none
    | .ok o => some o.err


/-- the file of the example is written … -/
example : ex91Err c!"http://a" = some none := by decide +kernel

/-- … **but an address with a character that is not in latin-1 is accepted when the paragraph is added, and `output` fails** -/
theorem C91_not_latin : ex91Err c!"http://→" = some (some .unicodeError) := by decide +kernel

end Verif
