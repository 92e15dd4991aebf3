import Verif.Lemmas.Document
import Verif.Lemmas.Roman
import Verif.Props.C12_Roman
/-! C48 and C49: layout and numbers of the pages of a document. -/
namespace Verif
open Spec

variable {κ : Type}

/-- C48, partial: the size, the rotation and the margin of a page are those of the last `per_page` entry for the page that sets them, and those of its section if there is
none. Missing: documents in which some section does not have the setting while another section or an entry does (`C48_leak_false`). -/
theorem C48_layout_partial (E : DocEnv κ) (D : DocDefs) (fuel : Nat) (secs : List DocSec) (s s' : DocSt κ) (hnew : s.pages = [])
    (hrun : docRun E D fuel 0 secs s = .ok s') (hsteps : ∀ d ∈ D.perPage, ∀ r ∈ d.pages, r.step ≠ 0)
    (hdraw : ∀ b p q, E.draw b p = .ok q → SameSheet p q) (hadd : ∀ k p k' q fin, E.add k p = .ok (k', q, fin) → SameSheet p q)
    (hsize : Settled secs D SecStyle.size PageArgs.size) (hrot : Settled secs D SecStyle.rotate PageArgs.rotate)
    (hmar : Settled secs D SecStyle.margin PageArgs.margin) (n : Nat) (dp : DPage) (hn : s'.pages[n]? = some dp) :
    ∃ d size rotate margin, secs[dp.sec]? = some d ∧
      AtPage n (fun e => e.style.bind PageArgs.size) D.perPage (d.style.size <|> D.style.size) size ∧
      AtPage n (fun e => e.style.bind PageArgs.rotate) D.perPage (d.style.rotate <|> D.style.rotate) rotate ∧
      AtPage n (fun e => e.style.bind PageArgs.margin) D.perPage (d.style.margin <|> D.style.margin) margin ∧
      HasLayout E.float s.setup dp.page size rotate margin := by
  -- the settings that are made nowhere stay as they are
  have hstay : ∀ d ∈ secs, Stays (fun t => (¬ (∀ d ∈ secs, (d.style.size <|> D.style.size).isSome) → t.width = s.setup.width ∧ t.height = s.setup.height) ∧
      (¬ (∀ d ∈ secs, (d.style.rotate <|> D.style.rotate).isSome) → t.rotate = s.setup.rotate) ∧
      (¬ (∀ d ∈ secs, (d.style.margin <|> D.style.margin).isSome) → t.margin = s.setup.margin)) E D (D.style.update d.style) := by
    intro d hd n running t t' ht h
    obtain ⟨e1, e2, e3⟩ := setup_ok h
    rw [perPage_args] at e1 e2 e3
    simp only [SecStyle.update] at e1 e2 e3
    refine ⟨fun hc => ?_, fun hc => ?_, fun hc => ?_⟩
    · obtain ⟨a1, a2, a3⟩ := hsize.resolve_left hc
      rw [settle_none _ _ a3, a1 d hd, a2] at e1
      exact ⟨e1.1.trans (ht.1 hc).1, e1.2.trans (ht.1 hc).2⟩
    · obtain ⟨a1, a2, a3⟩ := hrot.resolve_left hc
      rw [settle_none _ _ a3, a1 d hd, a2] at e2
      exact e2.trans (ht.2.1 hc)
    · obtain ⟨a1, a2, a3⟩ := hmar.resolve_left hc
      rw [settle_none _ _ a3, a1 d hd, a2] at e3
      exact Eq.trans (show t'.margin = t.margin from e3) (ht.2.2 hc)
  obtain ⟨d, st, off, rom, hd, hst, _, _, _, hby, _⟩ := docRun_find hnew hrun hstay ⟨fun _ => ⟨rfl, rfl⟩, fun _ => rfl, fun _ => rfl⟩ hn
  obtain ⟨t, setup, boxes, p0, p1, k, rest, fin, hP, a1, a2, a3, a4, a5, a6, a7⟩ := (hby n hst (Nat.le_refl n)).steps hn
  obtain ⟨b1, b2, b3⟩ := setup_ok a1
  rw [perPage_args] at b1 b2 b3
  simp only [SecStyle.update] at b1 b2 b3
  obtain ⟨c1, c2, c3, _⟩ := ofMargins_ok a2 a4
  have hbeg : SameSheet p1 p1.goToBeginning := ⟨rfl, rfl, rfl, rfl, rfl, rfl⟩
  have hsheet : SameSheet p0 dp.page := sameSheet_trans (sameSheet_trans (runAll_sheet hdraw _ a6) hbeg) (hadd _ _ _ _ _ a7)
  obtain ⟨m1, m2, m3, m4⟩ := ofMargins_sheet c3 hsheet
  refine ⟨d, _, _, _, hd, settle_at _ _ hsteps, settle_at _ _ hsteps, settle_at _ _ hsteps, ?_⟩
  have hmem : d ∈ secs := List.mem_of_getElem? hd
  have hr : setup.rotate = (settle n (fun e => e.style.bind PageArgs.rotate) D.perPage (d.style.rotate <|> D.style.rotate)).getD s.setup.rotate := by
    rw [b2]
    rcases hrot with h | ⟨h1, h2, h3⟩
    · obtain ⟨v, hv⟩ := Option.isSome_iff_exists.1 (settle_some (n := n) (f := fun e => e.style.bind PageArgs.rotate) D.perPage _ (h d hmem))
      rw [hv]; rfl
    · rw [settle_none _ _ h3, h1 d hmem, h2]
      show t.rotate = s.setup.rotate
      apply hP.2.1
      intro h
      have := h d hmem
      rw [h1 d hmem, h2] at this
      cases this
  refine ⟨setup.width, setup.height, setup.margin, ?_, ?_, ?_, ?_, m1, m2, m3, m4⟩
  · rcases hsize with h | ⟨h1, h2, h3⟩
    · obtain ⟨v, hv⟩ := Option.isSome_iff_exists.1 (settle_some (n := n) (f := fun e => e.style.bind PageArgs.size) D.perPage _ (h d hmem))
      rw [hv] at b1 ⊢
      exact b1
    · rw [settle_none _ _ h3, h1 d hmem, h2] at b1 ⊢
      have := hP.1 (by
        intro h
        have := h d hmem
        rw [h1 d hmem, h2] at this
        cases this)
      exact ⟨b1.1.trans this.1, b1.2.trans this.2⟩
  · rcases hmar with h | ⟨h1, h2, h3⟩
    · obtain ⟨v, hv⟩ := Option.isSome_iff_exists.1 (settle_some (n := n) (f := fun e => e.style.bind PageArgs.margin) D.perPage _ (h d hmem))
      rw [hv] at b3 ⊢
      exact b3
    · rw [settle_none _ _ h3, h1 d hmem, h2] at b3 ⊢
      have := hP.2.2 (by
        intro h
        have := h d hmem
        rw [h1 d hmem, h2] at this
        cases this)
      exact Eq.trans (show setup.margin = t.margin from b3) this
  · intro h
    rw [← hr] at h
    rw [hsheet.1, hsheet.2.1, c1, c2, PageSetup.size, if_pos h]
    exact ⟨rfl, rfl⟩
  · intro h
    rw [← hr] at h
    rw [hsheet.1, hsheet.2.1, c1, c2, PageSetup.size, if_neg (by rw [h]; simp)]
    exact ⟨rfl, rfl⟩

/-- a document without contents to speak of: the state is the number of pages still to come in each section -/
def sampleDoc : DocEnv (List Nat) where
  float := fun _ => none
  newId := fun _ => 0
  order := fun l => l
  draw := fun _ p => .ok p
  add := fun k p => match k with
    | [] => .ok ([], p, true)
    | 0 :: l => .ok (l, p, true)
    | (n + 1) :: l => .ok (n :: l, p, false)
  start := fun k _ => k

/-- no settings -/
def noStyle : SecStyle := ⟨none, none, none, none, none, none⟩

/-- an empty document with page defaults -/
def sampleDocSt (k : List Nat) : DocSt (List Nat) := ⟨⟨100, 200, false, zipSides [10, 10, 10, 10]⟩, 0, false, [], k⟩

/-- width, height and left margin of the pages of a result -/
def sheets {ε : Type} : Except ε (DocSt κ) → List (Rat × Rat × Rat)
  | .ok s => s.pages.map fun p => (p.page.width, p.page.height, p.page.marginLeft)
  | .error _ => []

/-- numbers of the pages of a result -/
def numbers {ε : Type} : Except ε (DocSt κ) → List Str
  | .ok s => s.pages.map DPage.number
  | .error _ => []

/-- margin 30 on page 0 -/
def entry0 : PerPage := ⟨[⟨0, 1, 1⟩], some ⟨none, none, some (.num 30)⟩, none⟩

/-- turned pages 1 and 2 with margin 5 -/
def entry1 : PerPage := ⟨[⟨1, 3, 1⟩], some ⟨none, some true, some (.num 5)⟩, none⟩

example : sheets (docRun sampleDoc ⟨⟨some (.num 50), some false, some (.num 7), none, none, none⟩, [], [entry0, entry1]⟩ 10 0
    [⟨{ noStyle with size := some (.seq [40, 60]) }, []⟩, ⟨noStyle, []⟩] (sampleDocSt [2, 1])) =
    [(40, 60, 30), (60, 40, 5), (60, 40, 5), (50, 50, 7), (50, 50, 7)] := by decide +kernel

/-- C48 fails: the margin of an entry for page 0 is also that of page 1, when neither the section nor the document sets a margin. -/
theorem C48_leak_false :
    ∃ (secs : List DocSec) (D : DocDefs) (s' : DocSt (List Nat)) (dp : DPage),
      docRun sampleDoc D 10 0 secs (sampleDocSt [1]) = .ok s' ∧ s'.pages[1]? = some dp ∧
      D.perPage = [entry0] ∧ ¬ OnPage entry0 1 ∧
      ¬ HasLayout sampleDoc.float (sampleDocSt [1]).setup dp.page none none none := by
  refine ⟨[⟨noStyle, []⟩], ⟨noStyle, [], [entry0]⟩, _, _, rfl, rfl, rfl, ?_, ?_⟩
  · rintro ⟨r, hr, k, h1, h2⟩
    simp only [entry0, List.mem_singleton] at hr
    subst hr
    simp only [Int.reduceLT, if_true] at h2
    omega
  · rintro ⟨w, h, m, _, h2, _, _, _, _, h3, _⟩
    simp only [MarginIs] at h2
    subst h2
    revert h3
    decide +kernel

theorem pageNumber_shows {roman : Bool} {offset : Int} {n : Nat} {t : Str} (h : pageNumber roman offset n = .ok t) :
    Shows roman t (n + 1 + offset) := by
  unfold pageNumber at h
  refine ⟨fun hr => ?_, fun hr => ?_⟩
  · rw [if_pos hr] at h
    by_cases hv : 0 < (n + 1 + offset : Int) ∧ (n + 1 + offset : Int) < 4000
    · obtain ⟨u, h1, _, h3⟩ := C12_roman _ hv.1 hv.2
      rw [h] at h1
      cases h1
      exact h3
    · rw [C12_rejected _ (by omega)] at h
      cases h
  · rw [if_neg (by simp [hr])] at h
    simp only [Except.ok.injEq] at h
    exact h.symm

theorem stays_true (E : DocEnv κ) (D : DocDefs) (style : SecStyle) : Stays (fun _ => True) E D style := fun _ _ _ _ _ _ => trivial

/-- the pages of the section before page `n` -/
theorem count_section {l : List DPage} {n st sec : Nat} (hst : st ≤ n) (hlt : n < l.length)
    (h1 : ∀ m, st ≤ m → m ≤ n → (l[m]?).map DPage.sec = some sec) (h2 : ∀ m, m < st → ∃ j, j < sec ∧ (l[m]?).map DPage.sec = some j) :
    (l.take n).countP (fun p => p.sec = sec) + st = n := by
  have h3 : l.take n = l.take st ++ (l.drop st).take (n - st) := by
    have e : n = st + (n - st) := by omega
    rw [e, List.take_add]
    congr 2
    omega
  rw [h3, List.countP_append]
  have h4 : (l.take st).countP (fun p => p.sec = sec) = 0 := by
    rw [List.countP_eq_zero]
    intro p hp
    obtain ⟨m, hm, rfl⟩ := List.mem_iff_getElem.1 hp
    rw [List.length_take] at hm
    obtain ⟨j, hj, hs⟩ := h2 m (by omega)
    rw [List.getElem?_eq_getElem (by omega)] at hs
    simp only [Option.map_some, Option.some.injEq] at hs
    simp only [List.getElem_take, decide_eq_true_eq]
    omega
  have h5 : ((l.drop st).take (n - st)).countP (fun p => p.sec = sec) = ((l.drop st).take (n - st)).length := by
    rw [List.countP_eq_length]
    intro p hp
    obtain ⟨m, hm, rfl⟩ := List.mem_iff_getElem.1 hp
    rw [List.length_take, List.length_drop] at hm
    have hs := h1 (st + m) (by omega) (by omega)
    rw [List.getElem?_eq_getElem (by omega)] at hs
    simp only [Option.map_some, Option.some.injEq] at hs
    simp only [List.getElem_take, List.getElem_drop, decide_eq_true_eq]
    exact hs
  rw [h4, h5, List.length_take, List.length_drop]
  omega

/-- C49, partial: a page shows its index from 1 plus the offset that its section or the document sets; in a section that resets the numbers it shows its place in the section,
counted from 1; without offsets and resets all pages of the document are numbered through. Missing: the documented meaning of the offset (`C49_offset_false`). -/
theorem C49_numbers_partial (E : DocEnv κ) (D : DocDefs) (fuel : Nat) (secs : List DocSec) (s s' : DocSt κ) (hnew : s.pages = [])
    (hrun : docRun E D fuel 0 secs s = .ok s') (n : Nat) (dp : DPage) (hn : s'.pages[n]? = some dp) :
    ∃ d roman v, secs[dp.sec]? = some d ∧ Shows roman dp.number v ∧
      (∀ b, (d.style.roman <|> D.style.roman) = some b → roman = b) ∧
      ((d.style.reset <|> D.style.reset) = some true → v = 1 + (s'.pages.take n).countP (fun p => p.sec = dp.sec)) ∧
      ((d.style.reset <|> D.style.reset) ≠ some true → ∀ o, (d.style.offset <|> D.style.offset) = some o → v = n + 1 + o) ∧
      ((∀ d ∈ secs, (d.style.offset <|> D.style.offset) = none ∧ (d.style.reset <|> D.style.reset) ≠ some true) → v = n + 1 + s.offset) := by
  obtain ⟨d, st, off, rom, hd, hst, hlt, hsec, hbefore, hby, hoff⟩ := docRun_find hnew hrun (fun d _ => stays_true E D _) trivial hn
  obtain ⟨t, setup, boxes, p0, p1, k, rest, fin, _, _, _, _, _, a5, _, _⟩ := (hby n hst (Nat.le_refl n)).steps hn
  have hcount := count_section hst hlt hsec hbefore
  have hreset : ∀ o : Option Bool, o.getD false = true ↔ o = some true := by
    intro o
    cases o with
    | none => simp
    | some b => simp
  refine ⟨d, _, _, hd, pageNumber_shows a5, ?_, ?_, ?_, ?_⟩
  · intro b hb
    simp only [SecStyle.update, hb, Option.getD_some]
  · intro hr
    simp only [secOffset, SecStyle.update, hr, Option.getD_some, if_true]
    omega
  · intro hr o ho
    have hne : ¬ (D.style.update d.style).reset.getD false = true := by rw [hreset]; exact hr
    rw [secOffset, if_neg hne, show (D.style.update d.style).offset = some o from ho]
    rfl
  · intro h
    rw [hoff (by
      intro d hd
      refine ⟨(h d hd).1, ?_⟩
      rw [← Bool.not_eq_true, hreset]
      exact (h d hd).2)]
    have := h d (List.mem_of_getElem? hd)
    have hne : ¬ (D.style.update d.style).reset.getD false = true := by rw [hreset]; exact this.2
    rw [secOffset, if_neg hne, show (D.style.update d.style).offset = none from this.1]
    rfl

/-- C49: the numbers of the pages of a section are consecutive. -/
theorem C49_consecutive (E : DocEnv κ) (D : DocDefs) (fuel : Nat) (secs : List DocSec) (s s' : DocSt κ) (hnew : s.pages = [])
    (hrun : docRun E D fuel 0 secs s = .ok s') (n : Nat) (p q : DPage) (hp : s'.pages[n]? = some p) (hq : s'.pages[n + 1]? = some q)
    (hsec : p.sec = q.sec) : ∃ roman v, Shows roman p.number v ∧ Shows roman q.number (v + 1) := by
  obtain ⟨d, st, off, rom, hd, hst, hlt, _, hbefore, hby, hoff⟩ := docRun_find hnew hrun (fun d _ => stays_true E D _) trivial hq
  have hst' : st ≤ n := by
    rcases Nat.lt_or_ge n st with h | h
    · obtain ⟨j, hj, hs⟩ := hbefore n h
      rw [hp] at hs
      simp only [Option.map_some, Option.some.injEq] at hs
      omega
    · exact h
  obtain ⟨_, _, _, _, _, _, _, _, _, _, _, _, _, a5, _, _⟩ := (hby n hst' (by omega)).steps hp
  obtain ⟨_, _, _, _, _, _, _, _, _, _, _, _, _, b5, _, _⟩ := (hby (n + 1) hst (Nat.le_refl _)).steps hq
  refine ⟨_, _, pageNumber_shows a5, ?_⟩
  have := pageNumber_shows b5
  rw [show ((n + 1 : Nat) : Int) + 1 + secOffset (D.style.update d.style) st off = (n : Int) + 1 + secOffset (D.style.update d.style) st off + 1 by omega] at this
  exact this

example : numbers (docRun sampleDoc ⟨noStyle, [], []⟩ 10 0
    [⟨{ noStyle with roman := some true }, []⟩, ⟨{ noStyle with reset := some true, roman := some false }, []⟩, ⟨{ noStyle with offset := some 10 }, []⟩]
    (sampleDocSt [3, 1, 1])) = [c!"I", c!"II", c!"III", c!"IV", c!"1", c!"2", c!"17", c!"18"] := by decide +kernel

/-- C49 fails for the documented offset: with offset 3 the fourth page shows 7, where the documentation has 1. -/
theorem C49_offset_false :
    ∃ (secs : List DocSec) (D : DocDefs) (s' : DocSt (List Nat)) (dp : DPage),
      docRun sampleDoc D 10 0 secs (sampleDocSt [3]) = .ok s' ∧ D.style.offset = some 3 ∧ s'.pages[3]? = some dp ∧
      dp.number = c!"7" ∧ ¬ Shows false dp.number 1 := by
  refine ⟨[⟨noStyle, []⟩], ⟨{ noStyle with offset := some 3 }, [], []⟩, _, _, rfl, rfl, rfl, by decide +kernel, ?_⟩
  rintro ⟨_, h⟩
  revert h
  decide +kernel

end Verif
