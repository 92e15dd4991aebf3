import Verif.Spec.Footnotes
import Verif.Lemmas.Range
import Verif.Props.C40_C41_Page
import Verif.Props.C35_C37_Content
/-! C50: footnote numbers; C55: the footnotes of a document. -/
namespace Verif
open Spec

variable {κ : Type}

theorem noteName_inj {m n : Nat} (h : noteName m = noteName n) : m = n := natStr_inj (List.append_cancel_left h)

theorem noteName_read (n : Nat) : parseInt ((noteName n).drop 10) = .ok (n : Int) := parseInt_intStr n

/-- the context after the marks `m` got the numbers after `k` -/
def setMarks (ctx : NCtx) (k : Nat) : List Nat → NCtx
  | [] => ctx
  | n :: l => setMarks (dset (noteName n) (k + 1) ctx) (k + 1) l

theorem setMarks_append (l1 l2 : List Nat) : ∀ (ctx : NCtx) (k : Nat), setMarks ctx k (l1 ++ l2) = setMarks (setMarks ctx k l1) (k + l1.length) l2 := by
  induction l1 with
  | nil => intro ctx k; rfl
  | cons n l1 ih =>
    intro ctx k
    simp only [List.cons_append, setMarks, ih, List.length_cons]
    congr 1
    omega

theorem setMarks_other (l : List Nat) (name : Str) (h : ∀ n ∈ l, name ≠ noteName n) : ∀ (ctx : NCtx) (k : Nat), dget name (setMarks ctx k l) = dget name ctx := by
  induction l with
  | nil => intro ctx k; rfl
  | cons n l ih =>
    intro ctx k
    rw [setMarks, ih (fun m hm => h m (by simp [hm])), dget_dset_ne (h n (by simp)).symm]

theorem setMarks_at (l : List Nat) (h : l.Nodup) : ∀ (ctx : NCtx) (k i n : Nat), l[i]? = some n → dget (noteName n) (setMarks ctx k l) = some (k + i + 1) := by
  induction l with
  | nil => intro ctx k i n h; simp at h
  | cons m l ih =>
    intro ctx k i n hi
    rw [List.nodup_cons] at h
    cases i with
    | zero =>
      simp only [List.getElem?_cons_zero, Option.some.injEq] at hi
      subst hi
      rw [setMarks, setMarks_other l _ (by
        intro j hj he
        exact h.1 (noteName_inj he ▸ hj)), dget_dset_self, Nat.add_zero]
    | succ i =>
      simp only [List.getElem?_cons_succ] at hi
      rw [setMarks, ih h.2 _ _ i n hi]
      congr 1
      omega

theorem checkNote_marks {total : Nat} : ∀ (ids : List (Str × Nat)) (m : List Nat) (page : List Nat) (ctx : NCtx),
    (ids.filter fun p => p.2 ≠ 0 ∧ notePrefix <+: p.1).map Prod.fst = m.map noteName → (∀ n ∈ m, n < total) →
    checkNote total ids (page, ctx) = .ok (page ++ m, setMarks ctx page.length m) := by
  intro ids
  induction ids with
  | nil =>
    intro m page ctx h _
    cases m with
    | nil => simp [checkNote, setMarks]
    | cons n m => cases h
  | cons p ids ih =>
    intro m page ctx h hlt
    obtain ⟨id, rects⟩ := p
    rw [List.filter_cons] at h
    simp only [checkNote]
    by_cases h0 : rects = 0
    · rw [if_neg (by simp [h0])] at h
      rw [if_pos h0]
      exact ih m page ctx h hlt
    rw [if_neg h0]
    by_cases hp : notePrefix <+: id
    · rw [if_pos (by simp [h0, hp])] at h
      rw [if_pos (List.isPrefixOf_iff_prefix.2 hp)]
      cases m with
      | nil => cases h
      | cons n m =>
        simp only [List.map_cons, List.cons.injEq] at h
        obtain ⟨rfl, h⟩ := h
        rw [noteName_read]
        have hn := hlt n (by simp)
        simp only [noteIndex]
        rw [if_pos ⟨by omega, by omega⟩]
        simp only
        rw [ih m _ _ h fun j hj => hlt j (by simp [hj])]
        simp [setMarks]
    · rw [if_neg (by simp [hp])] at h
      rw [if_neg (by rw [List.isPrefixOf_iff_prefix]; exact hp)]
      exact ih m page ctx h hlt

theorem checkNotes_marks {total : Nat} : ∀ (parts : List NPart) (m : List Nat) (page : List Nat) (ctx : NCtx),
    marksOn parts = m.map noteName → (∀ n ∈ m, n < total) →
    checkNotes total parts (page, ctx) = .ok (page ++ m, setMarks ctx page.length m) := by
  intro parts
  induction parts with
  | nil =>
    intro m page ctx h _
    cases m with
    | nil => simp [checkNotes, setMarks]
    | cons n m => cases h
  | cons p parts ih =>
    intro m page ctx h hlt
    cases p with
    | image => exact ih m page ctx h hlt
    | paragraph ids =>
      simp only [marksOn] at h
      obtain ⟨m1, m2, rfl, h1, h2⟩ := List.map_eq_append_iff.1 h.symm
      simp only [checkNotes]
      rw [checkNote_marks ids m1 page ctx h1.symm fun n hn => hlt n (by simp [hn])]
      simp only
      rw [ih m2 _ _ h2.symm fun n hn => hlt n (by simp [hn]), setMarks_append]
      simp

theorem noteList_at (m : List Nat) (i n : Nat) (h : m[i]? = some n) : (noteList m)[i]? = some (natStr (i + 1) ++ c!" ", n) := by
  simp [noteList, List.getElem?_zipIdx, h]

theorem processNotes_marks {total : Nat} {parts : List NPart} {m : List Nat} {ctx : NCtx} (h : marksOn parts = m.map noteName) (hlt : ∀ n ∈ m, n < total) :
    ∃ notes, processNotes total parts ctx = .ok (notes, setMarks ctx 0 m) ∧ Lists notes m ∧ (notes = none ↔ m = []) ∧ (m ≠ [] → notes = some (noteList m)) := by
  unfold processNotes
  rw [checkNotes_marks parts m [] ctx h hlt]
  cases m with
  | nil => exact ⟨none, rfl, ⟨fun _ => rfl, fun h => absurd rfl h⟩, by simp, fun h => absurd rfl h⟩
  | cons n m =>
    refine ⟨some (noteList (n :: m)), rfl, ⟨fun h => (by cases h), fun _ => ⟨_, rfl, by simp [noteList], fun i k hk => noteList_at _ i k hk⟩⟩, by simp, fun _ => rfl⟩

/-- C50, the parts of a page: with marks that are each in one place, the footnotes listed are those of the marks, in order of appearance and numbered from 1; the context has
for each mark its number in the list, and is the same as before otherwise. -/
theorem C50_listed (total : Nat) (parts : List NPart) (ctx : NCtx) (m : List Nat) (hm : marksOn parts = m.map noteName) (hd : m.Nodup)
    (hlt : ∀ n ∈ m, n < total) :
    ∃ notes ctx', processNotes total parts ctx = .ok (notes, ctx') ∧ Lists notes m ∧
      (∀ i n, m[i]? = some n → dget (noteName n) ctx' = some (i + 1)) ∧
      ∀ name, (∀ n ∈ m, name ≠ noteName n) → dget name ctx' = dget name ctx := by
  obtain ⟨notes, h1, h2, _⟩ := processNotes_marks (ctx := ctx) hm hlt
  refine ⟨notes, _, h1, h2, ?_, fun name h => setMarks_other m name h ctx 0⟩
  intro i n hi
  rw [setMarks_at m hd ctx 0 i n hi]
  simp

/-- in a lower rectangle, and whatever the numbers of the marks, a section shows a beginning of what it shows in a higher one -/
def Spec.Shrinks (E : NEnv κ) (k : κ) : Prop :=
  ∀ ctx ctx' h h' k1 k2 p1 p2, h' ≤ h → E.run k ctx h = .ok (k1, p1) → E.run k ctx' h' = .ok (k2, p2) → marksOn p2 <+: marksOn p1

/-- C50, partial: on every page the footnotes listed are those of the marks on it, in order and numbered from 1, and every mark shows its number in the list. Missing: sections in
which a mark comes first when the page has less room (`C50_order_false`), and marks in more than one place. -/
theorem C50_page_partial (E : NEnv κ) (total : Nat) (k k' : κ) (ctx ctx' : NCtx) (height : Rat) (pg : NPage)
    (hE : Shrinks E k) (hh : ∀ l, 0 ≤ E.height l) (hmarks : ∀ c h k1 parts, E.run k c h = .ok (k1, parts) →
      ∃ m : List Nat, marksOn parts = m.map noteName ∧ m.Nodup ∧ ∀ n ∈ m, n < total)
    (h : addNotes E total k ctx height = .ok (k', ctx', pg)) :
    ∃ m : List Nat, marksOn pg.parts = m.map noteName ∧ Lists pg.notes m ∧
      ∀ i n, m[i]? = some n → dget (noteName n) pg.ctx = some (i + 1) ∧ dget (noteName n) ctx' = some (i + 1) := by
  unfold addNotes at h
  split at h
  · cases h
  rename_i k1 parts hrun
  obtain ⟨m, hm, hd, hlt⟩ := hmarks _ _ _ _ hrun
  obtain ⟨notes, hp, hl, hnone, hsome⟩ := processNotes_marks (ctx := ctx) hm hlt
  rw [hp] at h
  by_cases hc : m = []
  · subst hc
    rw [hnone.2 rfl] at h
    simp only [Except.ok.injEq, Prod.mk.injEq] at h
    obtain ⟨rfl, rfl, rfl⟩ := h
    exact ⟨[], hm, ⟨fun _ => rfl, fun h => absurd rfl h⟩, by simp⟩
  rw [hsome hc] at h
  simp only at h
  split at h
  · cases h
  split at h
  · cases h
  rename_i k2 parts2 hrun2
  obtain ⟨m2, hm2, hd2, hlt2⟩ := hmarks _ _ _ _ hrun2
  obtain ⟨notes2, hp2, hl2, hnone2, hsome2⟩ := processNotes_marks (ctx := setMarks ctx 0 m) hm2 hlt2
  rw [hp2] at h
  simp only [Except.ok.injEq, Prod.mk.injEq] at h
  obtain ⟨rfl, rfl, rfl⟩ := h
  have hle : height - E.height (noteList m) - 10 ≤ height := by
    have := hh (noteList m)
    linarith
  have hpre : m2 <+: m := by
    have h1 := hE _ _ _ _ _ _ _ _ hle hrun hrun2
    rw [hm, hm2] at h1
    obtain ⟨t, ht⟩ := h1
    obtain ⟨a, b, rfl, h2, _⟩ := List.map_eq_append_iff.1 ht.symm
    have : a = m2 := (List.map_inj_right fun _ _ h => noteName_inj h).1 h2
    subst this
    exact List.prefix_append _ _
  refine ⟨m2, hm2, hl2, ?_⟩
  intro i n hi
  obtain ⟨t, rfl⟩ := hpre
  have hi' : (m2 ++ t)[i]? = some n := by
    rw [List.getElem?_append_left]
    · exact hi
    · exact (List.getElem?_eq_some_iff.1 hi).1
  constructor
  · have := setMarks_at (m2 ++ t) hd ctx 0 i n hi'
    simpa using this
  · have := setMarks_at m2 hd2 (setMarks ctx 0 (m2 ++ t)) 0 i n hi
    simpa using this

/-- the ids of a paragraph whose lines are letters, and digits for the lines with the mark of this number -/
def lineIds (s : Str) : List (Str × Nat) := (s.filter Char.isDigit).map fun c => (noteName (c.toNat - 48), 1)

/-- a section of paragraphs; every footnote is 10 high -/
def sampleNotes : NEnv (CContent Str Str Unit Unit) where
  run := fun k _ h => match k.run linesExec 100 0 h 100 h with
    | .ok k => .ok (k, k.out.parts.map fun p => match p with
      | .leaf s => .paragraph (lineIds s)
      | .image .. => .image)
    | .error _ => .error .exception
  height := fun l => 10 * l.length

/-- marks on the page with the numbers they show and the list of footnotes -/
def shownNotes (r : Except PyErr (κ × NCtx × NPage)) : Option (List (Str × Option Nat) × Option (List (Str × Nat))) :=
  match r with
  | .ok (_, _, pg) => some ((marksOn pg.parts).map fun m => (m, dget m pg.ctx), pg.notes)
  | .error _ => none

instance (p : Str × Nat) : Decidable (p.2 ≠ 0 ∧ notePrefix <+: p.1) := inferInstance

/-- two marks fit above their footnotes, the third goes to the next page -/
example : shownNotes (addNotes sampleNotes 3 (CContent.new 1 none [.leaf c!"a0" contStyle, .leaf c!"1bcde2" contStyle]) [] 90) =
    some ([(noteName 0, some 1), (noteName 1, some 2)], some [(c!"1 ", 0), (c!"2 ", 1)]) := by decide +kernel

/-- C50 fails when a group is put off in the lower rectangle: a mark that shows 2 belongs to the footnote with number 1. -/
theorem C50_order_false :
    shownNotes (addNotes sampleNotes 2 (CContent.new 1 none [.group [.leaf c!"abc0" contStyle] 0 contStyle, .leaf c!"1" contStyle]) [] 65) =
      some ([(noteName 1, some 2)], some [(c!"1 ", 1)]) := by decide +kernel

/-! ### The footnotes of a document -/

theorem Spec.Marked.append {k : Nat} {d1 d1' d2 d2' : List (List (Str × DVal))} {f1 f2 : List DVal} (h : Marked k d1 d1' f1)
    (h' : Marked (k + f1.length) d2 d2' f2) : Marked k (d1 ++ d2) (d1' ++ d2') (f1 ++ f2) := by
  induction h with
  | nil k => exact h'
  | cons a b c _ ih =>
    refine .cons a b c (ih ?_)
    simp only [List.length_cons] at h'
    rwa [Nat.add_assoc, Nat.add_comm 1]

theorem asNote_is (v : DVal) : IsNote v (asNote v) := by
  cases v with
  | text s => exact .inr ⟨_, rfl, .inl ⟨⟨s, rfl⟩, rfl⟩⟩
  | other s => exact .inr ⟨_, rfl, .inr (.inr ⟨s, rfl, rfl⟩)⟩
  | list l => exact .inr ⟨_, rfl, .inr (.inl ⟨⟨l, rfl⟩, rfl⟩)⟩
  | dict d => exact .inl ⟨d, rfl, rfl⟩

theorem asMark_is {n : Nat} {d : List (Str × DVal)} {v : DVal} (h : asMark n d = .ok v) : ∃ d', v = .dict d' ∧ IsMark n d d' := by
  unfold asMark at h
  split at h
  · cases h
  rename_i ids hids
  simp only [Except.ok.injEq] at h
  subst h
  refine ⟨_, rfl, dget_dset_self _ _ _, ?_, ?_, ?_⟩
  · rw [dget_dset_ne (by decide), dget_dset_self]
  · rw [dget_dset_ne (by decide), dget_dset_ne (by decide), dget_dset_self]
    unfold addId at hids
    split at hids
    · rename_i h1
      cases hids
      exact ⟨[], rfl, .inl ⟨h1, rfl⟩⟩
    · rename_i l h1
      cases hids
      exact ⟨l, rfl, .inr h1⟩
    · cases hids
  · intro k h1 h2 h3
    rw [dget_dset_ne (Ne.symm h1), dget_dset_ne (Ne.symm h2), dget_dset_ne (Ne.symm h3)]

theorem traverseDict_keys : ∀ (d : List (Str × DVal)) {fs : List DVal} {d' : List (Str × DVal)} {fs' : List DVal},
    traverseDict d fs = .ok (d', fs') → d'.map Prod.fst = d.map Prod.fst := by
  intro d
  induction d with
  | nil =>
    intro fs d' fs' h
    simp only [traverseDict, Except.ok.injEq, Prod.mk.injEq] at h
    obtain ⟨rfl, rfl⟩ := h
    rfl
  | cons p d ih =>
    intro fs d' fs' h
    obtain ⟨k, v⟩ := p
    simp only [traverseDict] at h
    split at h
    · cases h
    split at h
    · cases h
    rename_i hd
    simp only [Except.ok.injEq, Prod.mk.injEq] at h
    obtain ⟨rfl, rfl⟩ := h
    simp [ih hd]

mutual

theorem traverse_marked : ∀ (v : DVal) {fs : List DVal} {v' : DVal} {fs' : List DVal}, traverse v fs = .ok (v', fs') →
    ∃ g, fs' = fs ++ g ∧ Marked fs.length (noted v) (noted v') g ∧ bare v' = bare v
  | .text s, fs, v', fs', h => by
    simp only [traverse, Except.ok.injEq, Prod.mk.injEq] at h
    obtain ⟨rfl, rfl⟩ := h
    exact ⟨[], by simp, .nil _, rfl⟩
  | .other s, fs, v', fs', h => by
    simp only [traverse, Except.ok.injEq, Prod.mk.injEq] at h
    obtain ⟨rfl, rfl⟩ := h
    exact ⟨[], by simp, .nil _, rfl⟩
  | .list l, fs, v', fs', h => by
    simp only [traverse] at h
    split at h
    · cases h
    rename_i l' fs1 hl
    simp only [Except.ok.injEq, Prod.mk.injEq] at h
    obtain ⟨rfl, rfl⟩ := h
    obtain ⟨g, h1, h2, h3⟩ := traverseList_marked l hl
    exact ⟨g, h1, by simpa only [noted] using h2, by simp only [bare, h3]⟩
  | .dict d, fs, v', fs', h => by
    simp only [traverse] at h
    split at h
    · rename_i t ht
      split at h
      · cases h
      rename_i m hm
      simp only [Except.ok.injEq, Prod.mk.injEq] at h
      obtain ⟨rfl, rfl⟩ := h
      obtain ⟨d', rfl, hd'⟩ := asMark_is hm
      have ht' : dget c!"footnote" d' = some t := by
        rw [hd'.2.2.2 _ (by decide) (by decide) (by decide), ht]
      refine ⟨[asNote t], rfl, ?_, ?_⟩
      · simp only [noted, ht, ht']
        exact .cons hd' ht (asNote_is t) (.nil _)
      · simp only [bare, ht, ht']
    · rename_i ht
      split at h
      · cases h
      rename_i d' fs1 hd
      simp only [Except.ok.injEq, Prod.mk.injEq] at h
      obtain ⟨rfl, rfl⟩ := h
      have hk := traverseDict_keys d hd
      have ht' : dget c!"footnote" d' = none := by
        rw [dget_eq_none, hk, ← dget_eq_none]
        exact ht
      obtain ⟨g, h1, h2, h3⟩ := traverseDict_marked d hd
      refine ⟨g, h1, ?_, ?_⟩
      · simpa only [noted, ht, ht'] using h2
      · simp only [bare, ht, ht', h3]

theorem traverseList_marked : ∀ (l : List DVal) {fs : List DVal} {l' : List DVal} {fs' : List DVal}, traverseList l fs = .ok (l', fs') →
    ∃ g, fs' = fs ++ g ∧ Marked fs.length (notedList l) (notedList l') g ∧ bareList l' = bareList l
  | [], fs, l', fs', h => by
    simp only [traverseList, Except.ok.injEq, Prod.mk.injEq] at h
    obtain ⟨rfl, rfl⟩ := h
    exact ⟨[], by simp, .nil _, rfl⟩
  | v :: l, fs, l', fs', h => by
    simp only [traverseList] at h
    split at h
    · cases h
    rename_i v1 fs1 hv
    split at h
    · cases h
    rename_i l1 fs2 hl
    simp only [Except.ok.injEq, Prod.mk.injEq] at h
    obtain ⟨rfl, rfl⟩ := h
    obtain ⟨g1, rfl, b1, c1⟩ := traverse_marked v hv
    obtain ⟨g2, rfl, b2, c2⟩ := traverseList_marked l hl
    refine ⟨g1 ++ g2, by simp, ?_, by simp only [bareList, c1, c2]⟩
    simp only [notedList]
    rw [List.length_append] at b2
    exact b1.append b2

theorem traverseDict_marked : ∀ (d : List (Str × DVal)) {fs : List DVal} {d' : List (Str × DVal)} {fs' : List DVal}, traverseDict d fs = .ok (d', fs') →
    ∃ g, fs' = fs ++ g ∧ Marked fs.length (notedDict d) (notedDict d') g ∧ bareDict d' = bareDict d
  | [], fs, d', fs', h => by
    simp only [traverseDict, Except.ok.injEq, Prod.mk.injEq] at h
    obtain ⟨rfl, rfl⟩ := h
    exact ⟨[], by simp, .nil _, rfl⟩
  | (k, v) :: l, fs, d', fs', h => by
    simp only [traverseDict] at h
    split at h
    · cases h
    rename_i v1 fs1 hv
    split at h
    · cases h
    rename_i l1 fs2 hl
    simp only [Except.ok.injEq, Prod.mk.injEq] at h
    obtain ⟨rfl, rfl⟩ := h
    obtain ⟨g1, rfl, b1, c1⟩ := traverse_marked v hv
    obtain ⟨g2, rfl, b2, c2⟩ := traverseDict_marked l hl
    refine ⟨g1 ++ g2, by simp, ?_, by simp only [bareDict, c1, c2]⟩
    simp only [notedDict]
    rw [List.length_append] at b2
    exact b1.append b2

end

/-- C55: the dicts with a footnote become marks with consecutive numbers in the order of the document, the list of footnotes has the text of each at its number, and
nothing else in the document changes. -/
theorem C55_marks (v v' : DVal) (fs : List DVal) (h : traverse v [] = .ok (v', fs)) : Marked 0 (noted v) (noted v') fs ∧ bare v' = bare v := by
  obtain ⟨g, rfl, h1, h2⟩ := traverse_marked v h
  exact ⟨by simpa using h1, h2⟩

/-- a paragraph with two footnotes, one with an id -/
def sampleNoted : DVal :=
  .list [.dict [(c!".", .list [.text c!"a", .dict [(c!"footnote", .text c!"x")], .dict [(c!"footnote", .other c!"7"), (c!"ids", .list [.text c!"i"])]])]]

example : traverse sampleNoted [] = .ok
    (.list [.dict [(c!".", .list [.text c!"a",
      .dict [(c!"footnote", .text c!"x"), (c!"ids", .list [.text c!"$footnote:0"]), (c!"style", .text c!"$footnote"), (c!"var", .text c!"$footnote:0")],
      .dict [(c!"footnote", .other c!"7"), (c!"ids", .list [.text c!"i", .text c!"$footnote:1"]), (c!"style", .text c!"$footnote"), (c!"var", .text c!"$footnote:1")]])]],
    [.dict [(c!".", .text c!"x")], .dict [(c!".", .text c!"7")]]) := by rfl

example : (noted sampleNoted).length = 2 := by rfl

end Verif
