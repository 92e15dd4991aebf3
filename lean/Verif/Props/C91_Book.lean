import Verif.Lemmas.WritableBook
import Verif.Props.C89_FileLinks
/-! C91: a document of sections made from values that can be written has a file, and the file can be read. -/
namespace Verif
open Spec

/-- what a document of sections is made from can be written: its version, the ids of its paragraphs, in the sections and in the running
sections, and its images -/
structure Spec.BookWritable (json : Str → Option (Int × Str × Str)) (version : Str) (B : Book) (l : List BookSec) (plans : List BookPage) : Prop where
  version : (version.all fun c => decide (c.toNat < 256)) = true
  ids : ∀ d ∈ l, ∀ i, BoxHasId d.box i → idWritable json i
  running : ∀ pl ∈ plans, ∀ b ∈ pl.plan.boxes, ∀ i, BoxHasId (B.shows b.name pl.plan.number) i → idWritable json i
  images : ∀ a ∈ bookOps B l plans, ∀ im, a.HasImage im → dictWritable im.obj = true

section
variable {E : PdfEnv} {T : TextEnv} {refOf : Str → Str → Str} {B : Book} {fuel : Nat} {version : Str}
  {setup : PageSetup} {offset : Int} {roman : Bool} {l : List BookSec} {p : FProc} {s : BookSt} {Ws : List Rat}

/-- **C91.** A document of sections (C84), at least one, whose ids, images, fonts and numbers can be written has a file: `output` does not
fail, and every object of the document stands for a PDF object. -/
theorem C91_book (hnum : ∀ x, (meaning (E.num x)).isSome = true) (hfiles : ∀ path t, E.files path = some t → fontWritable t.name t.descriptor) (hT : T.Ok)
    (h : madeBook E T fuel B version setup offset roman l p = .ok s)
    (hW : ∀ pl ∈ s.plans, pl.plan.sheet.w - pl.plan.sheet.right - pl.plan.sheet.left ∈ Ws) (hl : ∀ d ∈ l, BoxFit (docNest T refOf d.box.depth) d.box.els Ws)
    (hr : ∀ pl ∈ s.plans, ∀ b ∈ pl.plan.boxes, RunFits T refOf (fun n => B.shows n pl.plan.number) b)
    (hw : BookWritable E.json version B l s.plans) (hne : l ≠ [])
    (level : Int) (flate : Bytes → Bytes) (u1 u2 : Bytes) (hu1 : 60 ∉ u1 ∧ 62 ∉ u1) (hu2 : 60 ∉ u2 ∧ 62 ∉ u2) :
    ∃ b, s.pdf.doc.withTrees E.num level = .ok b ∧ s.pdf.doc.output E.num level flate u1 u2 = .ok (b.output flate u1 u2) ∧
      (b.output flate u1 u2).err = none ∧ ∀ o ∈ b.content, readable o.value = true := by
  obtain ⟨h1, h2, h3⟩ := book_clean ⟨hnum, hfiles⟩ hT hw.version h hW hl hr hw.images hw.ids hw.running
  have hp : s.pdf.doc.pages ≠ [] := by
    intro e
    rw [e] at h3
    exact hne (List.length_eq_zero_iff.1 (Nat.le_zero.1 h3))
  obtain ⟨b, h1, h2, h3⟩ := clean_writes hnum h1 h2 hp level
  exact ⟨b, h1, by rw [PdfT.output, h1]; rfl, h3 flate u1 u2 hu1 hu2, h2⟩

/-- **C91.** Such a document can be read: what C84 says of its file needs no other condition than that the file has less than 10^10 bytes
(the positions of the objects are written with ten digits). -/
theorem C91_document (hnum : ∀ x, (meaning (E.num x)).isSome = true) (hfiles : ∀ path t, E.files path = some t → fontWritable t.name t.descriptor) (hT : T.Ok)
    (h : madeBook E T fuel B version setup offset roman l p = .ok s)
    (hW : ∀ pl ∈ s.plans, pl.plan.sheet.w - pl.plan.sheet.right - pl.plan.sheet.left ∈ Ws) (hl : ∀ d ∈ l, BoxFit (docNest T refOf d.box.depth) d.box.els Ws)
    (hr : ∀ pl ∈ s.plans, ∀ b ∈ pl.plan.boxes, RunFits T refOf (fun n => B.shows n pl.plan.number) b) (him : ImagesOk (bookOps B l s.plans))
    (hw : BookWritable E.json version B l s.plans) (hne : l ≠ [])
    (level : Int) (flate : Bytes → Bytes) (u1 u2 : Bytes) (hu1 : 60 ∉ u1 ∧ 62 ∉ u1) (hu2 : 60 ∉ u2 ∧ 62 ∉ u2) :
    ∃ file, (s.pdf.doc.output E.num level flate u1 u2).map (fun r => (r.written, r.err)) = .ok (file, none) ∧ (file.length < 10 ^ 10 →
      ∃ R ids dicts pages shown, openFile file = some R ∧ BookRead R flate E.num B l s.plans ids dicts pages shown) := by
  obtain ⟨b, h1, h2, h3, h4⟩ := C91_book hnum hfiles hT h hW hl hr hw hne level flate u1 u2 hu1 hu2
  refine ⟨(b.output flate u1 u2).written, ?_, fun hs => C84_book_partial hT h hW hl hr him h1 h4 flate u1 u2 h3 hs hu1 hu2⟩
  rw [h2]
  simp only [Except.map, h3]

/-- **C91.** Also the links, names and outline can be read: what C89 says of the file needs no other condition than its size. -/
theorem C91_links (hnum : ∀ x, (meaning (E.num x)).isSome = true) (hfiles : ∀ path t, E.files path = some t → fontWritable t.name t.descriptor) (hT : T.Ok)
    (h : madeBook E T fuel B version setup offset roman l p = .ok s)
    (hW : ∀ pl ∈ s.plans, pl.plan.sheet.w - pl.plan.sheet.right - pl.plan.sheet.left ∈ Ws) (hl : ∀ d ∈ l, BoxFit (plainNest T refOf d.box.depth) d.box.els Ws)
    (hr : ∀ pl ∈ s.plans, ∀ b ∈ pl.plan.boxes, RunPlain T refOf (fun n => B.shows n pl.plan.number) b) (him : ImagesOk (bookOps B l s.plans))
    (hact : ∀ a ∈ bookOps B l s.plans, ∀ im, a.HasImage im → ¬ isAction im.obj)
    {ε δ : Rat} (hε : T.fmt.Signed ε) (hδ : ∀ v, |E.rnd v - v| ≤ δ)
    (hw : BookWritable E.json version B l s.plans) (hne : l ≠ [])
    (level : Int) (flate : Bytes → Bytes) (u1 u2 : Bytes) (hu1 : 60 ∉ u1 ∧ 62 ∉ u1) (hu2 : 60 ∉ u2 ∧ 62 ∉ u2) :
    ∃ file, (s.pdf.doc.output E.num level flate u1 u2).map (fun r => (r.written, r.err)) = .ok (file, none) ∧ (file.length < 10 ^ 10 →
      ∃ R ids dicts pages shown mk, openFile file = some R ∧ BookRead R flate E.num B l s.plans ids dicts pages shown ∧
        BookLinked R E T ε δ B l s.plans dicts shown mk) := by
  obtain ⟨b, h1, h2, h3, h4⟩ := C91_book hnum hfiles hT h hW (fun d hd => (plain_stronger _).box (hl d hd))
    (fun pl hpl b hb => by
      obtain ⟨w, e, hbox⟩ := hr pl hpl b hb
      exact ⟨w, e, (plain_stronger _).box hbox⟩) hw hne level flate u1 u2 hu1 hu2
  refine ⟨(b.output flate u1 u2).written, ?_, fun hs => C89_links_partial hT h hW hl hr him hact hε hδ h1 h4 flate u1 u2 h3 hs hu1 hu2⟩
  rw [h2]
  simp only [Except.map, h3]

end

/-! ### Examples -/

theorem ex91_ids {t : Nat} {s u : Str} {ids : List Str} {i : Str} (h : BoxHasId (ex89Box t (ex89Par s u ids)) i) : i ∈ ids := by
  obtain ⟨k, h⟩ := h
  have h : i ∈ (if t = k then ids else []) ++ [] := by
    simpa [boxHeld, ex89Box, elHeld, nestHeld, ex80Leaf, leafIds, contentIds, ex89Par] using h
  rw [List.append_nil] at h
  split at h
  · exact h
  · cases h

/-- the document of C89, with a header, a name, links and an outline, is made of what can be written -/
theorem ex91_writable (plans : List BookPage) : BookWritable ex89E.json c!"1.5" ex89Book ex89Secs plans := by
  have hid : ∀ i ∈ [c!"$ref:l", c!"$label:l", c!"$uri:u", c!"$outline:o"], idWritable ex89E.json i := by
    intro i hi
    have h : (match idKind i with
      | .label n => stringChars n
      | .ref n => stringChars n
      | .uri n => stringChars n
      | .other => true) = true := by
      revert i
      decide +kernel
    refine ⟨?_, ?_⟩
    · rintro name (e | e | e) <;> rw [e] at h <;> exact h
    · intro data level title label _ hj
      cases hj
      exact ⟨rfl, rfl⟩
  refine ⟨by decide, ?_, ?_, ?_⟩
  · intro d hd i hi
    simp only [ex89Secs, List.mem_cons, List.not_mem_nil, or_false] at hd
    rcases hd with rfl | rfl
    · have := ex91_ids hi
      simp only [List.mem_singleton] at this
      subst this
      exact hid _ (by simp)
    · have := ex91_ids hi
      simp only [List.mem_cons, List.not_mem_nil, or_false] at this
      rcases this with rfl | rfl <;> exact hid _ (by simp)
  · intro pl _ b _ i hi
    have := ex91_ids hi
    simp only [List.mem_singleton] at this
    subst this
    exact hid _ (by simp)
  · intro a ha im him
    have : ∃ t s u ids, a = .content (ex89Box t (ex89Par s u ids)) := by
      rcases List.mem_append.1 ha with h | h
      · obtain ⟨d, hd, rfl⟩ := List.mem_map.1 h
        simp only [ex89Secs, List.mem_cons, List.not_mem_nil, or_false] at hd
        rcases hd with rfl | rfl <;> exact ⟨_, _, _, _, rfl⟩
      · obtain ⟨pl, -, h⟩ := List.mem_flatMap.1 h
        obtain ⟨b, -, rfl⟩ := List.mem_map.1 h
        exact ⟨_, _, _, _, rfl⟩
    obtain ⟨t, s, u, ids, rfl⟩ := this
    obtain ⟨k, h⟩ := him
    simp [boxHeld, ex89Box, elHeld, nestHeld, ex80Leaf, leafImages] at h

/-- so its file can be written and read -/
example (s : BookSt) (h : ex89 = .ok s) (hW : ∀ pl ∈ s.plans, pl.plan.sheet.w - pl.plan.sheet.right - pl.plan.sheet.left ∈ [(90 : Rat)])
    (hr : ∀ pl ∈ s.plans, ∀ b ∈ pl.plan.boxes, RunFits ex77T sampleRef (fun n => ex89Book.shows n pl.plan.number) b) :=
  C91_book (E := ex89E) (by intro x; rfl) (fun path t h => by cases h) ⟨sampleTFmt_ok, by intro f m map c g h; cases h⟩ h hW (fun d hd => (plain_stronger _).box (by
    simp only [ex89Secs, List.mem_cons, List.not_mem_nil, or_false] at hd
    rcases hd with rfl | rfl <;> exact ex89_fit ..)) hr (ex91_writable _) (by simp [ex89Secs]) 1 id b!"00" b!"11" (by decide) (by decide)

/-- the error of `output` for a section with a link to an address -/
def ex91BookErr (uri : Str) : Option (Option PyErr) :=
  match madeBook ex89E ex77T 40 ex89Book c!"1.5" ex84Setup 0 false
      [⟨⟨none, none, none, none, none, none⟩, [], ex89Box 0 (ex89Par c!"a " c!"b" [c!"$uri:" ++ uri])⟩] ⟨[], []⟩ with
  | .error _ => none
  | .ok s => match s.pdf.doc.output ex89E.num 1 id b!"00" b!"11" with
    | .error _ => none
    | .ok o => some o.err

example : ex91BookErr c!"http://a" = some none := by decide +kernel

/-- **an address in a section that is not latin-1 lets `output` fail, when the whole document is built** -/
theorem C91_book_not_latin : ex91BookErr c!"http://→" = some (some .unicodeError) := by decide +kernel

end Verif
