import Mathlib.Tactic.Linarith
import Verif.Lemmas.Document
import Verif.Props.C48_C49_Pages
/-! C53: running sections. -/
namespace Verif
open Spec

variable {κ : Type}

theorem setRunning_ok {secs : List (Str × RunSec)} {pw ph : Rat} {m : List (Str × Rat)} : ∀ (names : List Str) {boxes : List RunBox},
    setRunning secs pw ph m names = .ok boxes → boxes.map RunBox.name = names ∧ ∀ b ∈ boxes, runBox secs pw ph m b.name = .ok b := by
  intro names
  induction names with
  | nil =>
    intro boxes h
    simp only [setRunning, Except.ok.injEq] at h
    subst h
    exact ⟨rfl, by simp⟩
  | cons name names ih =>
    intro boxes h
    simp only [setRunning] at h
    split at h
    · cases h
    rename_i b hb
    split at h
    · cases h
    rename_i bs hbs
    simp only [Except.ok.injEq] at h
    subst h
    obtain ⟨h1, h2⟩ := ih hbs
    have hname : b.name = name := by
      unfold runBox at hb
      split at hb
      · cases hb
      rename_i s hs
      cases hw : runWidth pw m s.width with
      | error e => rw [hw] at hb; cases hb
      | ok w =>
        cases hh : runHeight ph m s.height with
        | error e => rw [hw, hh] at hb; cases hb
        | ok h =>
          cases hx : runX pw m s.x with
          | error e => rw [hw, hh, hx] at hb; cases hb
          | ok x =>
            cases hy : runY ph m s.y with
            | error e => rw [hw, hh, hx, hy] at hb; cases hb
            | ok y =>
              rw [hw, hh, hx, hy] at hb
              cases hb
              rfl
    refine ⟨by rw [List.map_cons, h1, hname], ?_⟩
    intro c hc
    rcases List.mem_cons.1 hc with rfl | hc
    · rw [hname]; exact hb
    · exact h2 c hc

/-- a running section whose measures are all given -/
def RunSec.Given (s : RunSec) : Prop := s.width ≠ .none ∧ s.height ≠ .none ∧ s.x ≠ .none ∧ s.y ≠ .none

theorem runWidth_doc {p : Page} {m : List (Str × Rat)} (hm : OfMargins m p) {s : Meas} (hs : s ≠ .none) {w : Option Rat}
    (h : runWidth p.width m s = .ok w) : w.isSome ∧ docWidth p s = w := by
  obtain ⟨h1, h2, h3, h4⟩ := hm
  cases s with
  | none => exact absurd rfl hs
  | num q => cases h; exact ⟨rfl, rfl⟩
  | missing =>
    simp only [runWidth, side, h3, h4] at h
    cases h
    refine ⟨rfl, ?_⟩
    simp only [docWidth, Option.some.injEq]
    linarith
  | word t =>
    simp only [runWidth] at h
    by_cases e1 : t = c!"left"
    · subst e1
      rw [if_pos (.inl rfl), side, h3] at h
      cases h
      exact ⟨rfl, rfl⟩
    by_cases e2 : t = c!"right"
    · subst e2
      rw [if_pos (.inr rfl), side, h4] at h
      cases h
      exact ⟨rfl, rfl⟩
    rw [if_neg (by simp [e1, e2])] at h
    split at h
    · rename_i e3
      cases h
      exact ⟨rfl, by rw [docWidth, if_neg e1, if_neg e2, if_pos e3]⟩
    · cases h

theorem runHeight_doc {p : Page} {m : List (Str × Rat)} (hm : OfMargins m p) {s : Meas} (hs : s ≠ .none) {w : Option Rat}
    (h : runHeight p.height m s = .ok w) : w.isSome ∧ docHeight p s = w := by
  obtain ⟨h1, h2, h3, h4⟩ := hm
  cases s with
  | none => exact absurd rfl hs
  | num q => cases h; exact ⟨rfl, rfl⟩
  | missing =>
    simp only [runHeight, side, h1, h2] at h
    cases h
    exact ⟨rfl, rfl⟩
  | word t =>
    simp only [runHeight] at h
    by_cases e1 : t = c!"top"
    · subst e1
      rw [if_pos (.inl rfl), side, h1] at h
      cases h
      exact ⟨rfl, rfl⟩
    by_cases e2 : t = c!"bottom"
    · subst e2
      rw [if_pos (.inr rfl), side, h2] at h
      cases h
      exact ⟨rfl, rfl⟩
    rw [if_neg (by simp [e1, e2])] at h
    split at h
    · rename_i e3
      cases h
      exact ⟨rfl, by rw [docHeight, if_neg e1, if_neg e2, if_pos e3]⟩
    · cases h

theorem runX_doc {p : Page} {m : List (Str × Rat)} (hm : OfMargins m p) {s : Meas} (hs : s ≠ .none) {w : Option Rat}
    (h : runX p.width m s = .ok w) : w.isSome ∧ docX p s = w := by
  obtain ⟨h1, h2, h3, h4⟩ := hm
  cases s with
  | none => exact absurd rfl hs
  | num q => cases h; exact ⟨rfl, rfl⟩
  | missing => cases h; exact ⟨rfl, rfl⟩
  | word t =>
    simp only [runX] at h
    split at h
    · rename_i e1
      subst e1
      rw [side, h3] at h
      cases h
      exact ⟨rfl, rfl⟩
    · split at h
      · rename_i e1 e2
        subst e2
        rw [side, h4] at h
        cases h
        exact ⟨rfl, rfl⟩
      · cases h

theorem runY_doc {p : Page} {m : List (Str × Rat)} (hm : OfMargins m p) {s : Meas} (hs : s ≠ .none) {w : Option Rat}
    (h : runY p.height m s = .ok w) : w.isSome ∧ docY p s = w := by
  obtain ⟨h1, h2, h3, h4⟩ := hm
  cases s with
  | none => exact absurd rfl hs
  | num q => cases h; exact ⟨rfl, rfl⟩
  | missing => cases h; exact ⟨rfl, rfl⟩
  | word t =>
    simp only [runY] at h
    split at h
    · rename_i e1
      subst e1
      rw [side, h1] at h
      cases h
      exact ⟨rfl, rfl⟩
    · split at h
      · rename_i e1 e2
        subst e2
        rw [side, h2] at h
        cases h
        exact ⟨rfl, rfl⟩
      · cases h

/-- a box with all measures is placed there -/
theorem runBox_doc {secs : List (Str × RunSec)} {p : Page} {m : List (Str × Rat)} (hm : OfMargins m p) {name : Str} {b : RunBox}
    (h : runBox secs p.width p.height m name = .ok b) :
    ∃ s, dget name secs = some s ∧ (s.Given → ∃ w hh x y, b = ⟨name, some w, some hh, some x, some y⟩ ∧ docWidth p s.width = some w ∧
      docHeight p s.height = some hh ∧ docX p s.x = some x ∧ docY p s.y = some y) := by
  unfold runBox at h
  split at h
  · cases h
  rename_i s hs
  refine ⟨s, hs, fun hg => ?_⟩
  cases hw : runWidth p.width m s.width with
  | error e => rw [hw] at h; cases h
  | ok w =>
    cases hh : runHeight p.height m s.height with
    | error e => rw [hw, hh] at h; cases h
    | ok k =>
      cases hx : runX p.width m s.x with
      | error e => rw [hw, hh, hx] at h; cases h
      | ok x =>
        cases hy : runY p.height m s.y with
        | error e => rw [hw, hh, hx, hy] at h; cases h
        | ok y =>
          rw [hw, hh, hx, hy] at h
          cases h
          obtain ⟨a1, a2⟩ := runWidth_doc hm hg.1 hw
          obtain ⟨b1, b2⟩ := runHeight_doc hm hg.2.1 hh
          obtain ⟨c1, c2⟩ := runX_doc hm hg.2.2.1 hx
          obtain ⟨d1, d2⟩ := runY_doc hm hg.2.2.2 hy
          obtain ⟨w, rfl⟩ := Option.isSome_iff_exists.1 a1
          obtain ⟨k, rfl⟩ := Option.isSome_iff_exists.1 b1
          obtain ⟨x, rfl⟩ := Option.isSome_iff_exists.1 c1
          obtain ⟨y, rfl⟩ := Option.isSome_iff_exists.1 d1
          exact ⟨w, k, x, y, rfl, a2, b2, c2, d2⟩

theorem posSize_move (p : Page) (b : RunBox) : (p.posSize b).1 = { p with x := (p.posSize b).2.x, yUp := (p.posSize b).2.y } := by
  unfold Page.posSize
  cases b.x <;> cases b.y <;> rfl

/-- the boxes drawn are those of the running sections -/
theorem runAll_drawn {draw : PlacedBox → Page → Except PyErr Page} (hd : ∀ b p q, draw b p = .ok q → SameSheet p q) :
    ∀ (l : List RunBox) {p q : Page} {bs : List PlacedBox}, runAll draw l p = .ok (bs, q) →
      bs.map PlacedBox.name = l.map RunBox.name ∧ Drawn draw bs p q ∧
      ∀ c ∈ bs, ∃ b ∈ l, c.name = b.name ∧ ∀ w h x y, b = ⟨c.name, some w, some h, some x, some y⟩ → c = ⟨c.name, x, p.height - y, w, h⟩ := by
  intro l
  induction l with
  | nil =>
    intro p q bs h
    simp only [runAll, Except.ok.injEq, Prod.mk.injEq] at h
    obtain ⟨rfl, rfl⟩ := h
    exact ⟨rfl, .nil _, by simp⟩
  | cons b l ih =>
    intro p q bs h
    simp only [runAll] at h
    split at h
    · cases h
    rename_i r hr
    split at h
    · cases h
    rename_i bs' r' hr'
    simp only [Except.ok.injEq, Prod.mk.injEq] at h
    obtain ⟨rfl, rfl⟩ := h
    obtain ⟨h1, h2, h3⟩ := ih hr'
    have hname : (p.posSize b).2.name = b.name := rfl
    have hsheet : SameSheet p r := sameSheet_trans (posSize_sheet p b) (hd _ _ _ hr)
    refine ⟨by rw [List.map_cons, List.map_cons, h1, hname], ?_, ?_⟩
    · rw [posSize_move] at hr
      exact .cons hr h2
    · intro c hc
      rcases List.mem_cons.1 hc with rfl | hc
      · refine ⟨b, by simp, rfl, ?_⟩
        intro w h x y hb
        rw [hb]
        rfl
      · obtain ⟨b', hb', hn, he⟩ := h3 c hc
        refine ⟨b', by simp [hb'], hn, ?_⟩
        intro w h x y hb
        rw [← hsheet.2.1]
        exact he w h x y hb

/-- C53, partial: every page has each running section of its section once, as changed by the `per_page` entries for the page, and no other; each is drawn on the page before its
contents, in the rectangle documented for it if none of its measures is `None`. Missing: measures that are `None` (`C53_none_width_false`, `C53_none_x_false`). -/
theorem C53_running_partial (E : DocEnv κ) (D : DocDefs) (fuel : Nat) (secs : List DocSec) (s s' : DocSt κ) (hnew : s.pages = [])
    (hrun : docRun E D fuel 0 secs s = .ok s') (hsteps : ∀ d ∈ D.perPage, ∀ r ∈ d.pages, r.step ≠ 0) (horder : ∀ l, (E.order l).Perm l)
    (hdraw : ∀ b p q, E.draw b p = .ok q → SameSheet p q) (hadd : ∀ k p k' q fin, E.add k p = .ok (k', q, fin) → SameSheet p q)
    (n : Nat) (dp : DPage) (hn : s'.pages[n]? = some dp) :
    ∃ d, secs[dp.sec]? = some d ∧ (dp.placed.map PlacedBox.name).Nodup ∧
      (∀ name, name ∈ dp.placed.map PlacedBox.name ↔
        AtPage n (mentions name) D.perPage (if name ∈ d.running then some true else some false) (some true)) ∧
      (∀ b ∈ dp.placed, ∃ r, dget b.name D.secs = some r ∧ (r.Given → AsDocumented dp.page r b)) ∧
      ∃ p0 p1 k k' fin, p0.stream = [] ∧ SameSheet p0 dp.page ∧ Drawn E.draw dp.placed p0 p1 ∧
        E.add k p1.goToBeginning = .ok (k', dp.page, fin) := by
  obtain ⟨d, st, off, rom, hd, hst, _, _, _, hby, _⟩ := docRun_find hnew hrun (fun d _ => stays_true E D _) trivial hn
  obtain ⟨t, setup, boxes, p0, p1, k, rest, fin, _, a1, a2, a3, a4, a5, a6, a7⟩ := (hby n hst (Nat.le_refl n)).steps hn
  obtain ⟨c1, c2, c3, c4⟩ := ofMargins_ok a2 a4
  have hbeg : SameSheet p1 p1.goToBeginning := ⟨rfl, rfl, rfl, rfl, rfl, rfl⟩
  have hsheet : SameSheet p0 dp.page := sameSheet_trans (sameSheet_trans (runAll_sheet hdraw _ a6) hbeg) (hadd _ _ _ _ _ a7)
  have hm := ofMargins_sheet c3 hsheet
  obtain ⟨hnd, hnames⟩ := perPage_names n D.perPage ⟨(D.style.update d.style).size, (D.style.update d.style).rotate, (D.style.update d.style).margin⟩
    (setUpdate [] d.running) (setUpdate_nodup _ _ List.nodup_nil)
  obtain ⟨e1, e2⟩ := setRunning_ok _ a3
  obtain ⟨f1, f2, f3⟩ := runAll_drawn hdraw _ a6
  rw [e1] at f1
  rw [← c1, ← c2, ← hsheet.1, ← hsheet.2.1] at e2
  refine ⟨d, hd, ?_, ?_, ?_, p0, p1, k, rest, fin, c4, hsheet, f2, a7⟩
  · rw [f1]
    exact (horder _).nodup_iff.2 hnd
  · intro name
    have hown : (if name ∈ setUpdate [] d.running then some true else some false) = (if name ∈ d.running then some true else some false) := by
      simp only [setUpdate_mem, List.not_mem_nil, false_or]
    have h1 := hnames name
    rw [hown] at h1
    have h2 := settle_at (n := n) (f := mentions name) D.perPage (if name ∈ d.running then some true else some false) hsteps
    rw [f1, (horder _).mem_iff]
    rw [← h1] at h2
    constructor
    · intro h
      rw [if_pos h] at h2
      exact h2
    · intro h
      have h3 := atPage_unique h h2
      by_contra hc
      rw [if_neg hc] at h3
      cases h3
  · intro b hb
    obtain ⟨rb, hrb, hname, hplace⟩ := f3 b hb
    obtain ⟨r, hr, hgiven⟩ := runBox_doc hm (e2 rb hrb)
    refine ⟨r, by rw [hname]; exact hr, fun hg => ?_⟩
    obtain ⟨w, h, x, y, g1, g2, g3, g4, g5⟩ := hgiven hg
    have hpl := hplace w h x y (by rw [hname]; exact g1)
    rw [hpl]
    refine ⟨g2, g3, g4, ?_⟩
    rw [g5, hsheet.2.1]
    simp only [Option.some.injEq]
    linarith

/-- the boxes of the pages of a result -/
def boxesOf {ε : Type} : Except ε (DocSt κ) → List (List PlacedBox)
  | .ok s => s.pages.map DPage.placed
  | .error _ => []

/-- a header and a footer -/
def headFoot : List (Str × RunSec) :=
  [(c!"header", ⟨.missing, .word c!"top", .word c!"left", .num 3⟩), (c!"footer", ⟨.word c!"full", .word c!"bottom", .missing, .word c!"bottom"⟩)]

/-- no footer on page 1 -/
def noFooter : PerPage := ⟨[⟨1, 2, 1⟩], none, some ([c!"footer"], [])⟩

example : boxesOf (docRun sampleDoc ⟨noStyle, headFoot, [noFooter]⟩ 10 0 [⟨noStyle, [c!"header", c!"footer"]⟩] (sampleDocSt [1])) =
    [[⟨c!"header", 10, 197, 80, 10⟩, ⟨c!"footer", 0, 10, 100, 10⟩], [⟨c!"header", 10, 197, 80, 10⟩]] := by decide +kernel

/-- C53 fails for a width that is `None`: the section at the left edge of the page reaches to the right margin, and is wider than the contents of the page. -/
theorem C53_none_width_false :
    ∃ (D : DocDefs) (secs : List DocSec) (s' : DocSt (List Nat)) (dp : DPage) (b : PlacedBox) (r : RunSec),
      docRun sampleDoc D 10 0 secs (sampleDocSt [0]) = .ok s' ∧ s'.pages = [dp] ∧ dp.placed = [b] ∧ dget b.name D.secs = some r ∧ r.width = .none ∧
      docWidth dp.page r.width = some 80 ∧ b.width = 90 :=
  ⟨⟨noStyle, [(c!"header", ⟨.none, .num 5, .num 0, .num 0⟩)], []⟩, [⟨noStyle, [c!"header"]⟩], _, _, _, _, rfl, rfl, rfl, rfl, rfl,
    by decide +kernel, by decide +kernel⟩

/-- C53 fails for `x` and `y` that are `None`: the section is not at the corner of the page but at the corner of the contents, or where the section before it ended. -/
theorem C53_none_x_false :
    ∃ (D : DocDefs) (secs : List DocSec) (s' : DocSt (List Nat)) (dp : DPage) (b : PlacedBox) (r : RunSec),
      docRun sampleDoc D 10 0 secs (sampleDocSt [0]) = .ok s' ∧ s'.pages = [dp] ∧ dp.placed = [b] ∧ dget b.name D.secs = some r ∧ r.x = .none ∧ r.y = .none ∧
      docX dp.page r.x = some 0 ∧ docY dp.page r.y = some 0 ∧ b.x = 10 ∧ dp.page.height - b.y = 10 :=
  ⟨⟨noStyle, [(c!"header", ⟨.num 50, .num 5, .none, .none⟩)], []⟩, [⟨noStyle, [c!"header"]⟩], _, _, _, _, rfl, rfl, rfl, rfl, rfl, rfl,
    by decide +kernel, by decide +kernel, by decide +kernel, by decide +kernel⟩

end Verif
