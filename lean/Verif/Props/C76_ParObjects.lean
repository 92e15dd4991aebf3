import Verif.Lemmas.ParObjects
import Verif.Props.C70_BoxWords
/-! C76: a paragraph that goes on after a page break is laid out there as if nothing had been tried before. -/
namespace Verif
open Spec

variable {B C : Type}

/-- an element of a content box: a paragraph or an image -/
inductive Spec.BoxItem
  | par (cfg : TCfg) (st : CStyle)
  | image (i : CImg)

/-- the element, if its paragraph is a value: it knows the rectangles it has been in, and nothing else -/
def Spec.BoxItem.asValue : BoxItem → CEl Leaf
  | .par cfg st => .leaf (.par cfg []) st
  | .image i => .image i

/-- the element, as the code has it -/
def Spec.BoxItem.asObject : BoxItem → CEl ParRef
  | .par cfg st => .leaf (.fresh cfg) st
  | .image i => .image i

/-- what can be seen: the parts, and whether the box is finished, or the error -/
def Spec.shownOf {α : Type} (fin : α → Bool) (r : CRun (List (CPart LeafPart) × α)) : CRun (List (CPart LeafPart) × Bool) := r.map fun q => (q.1, fin q.2)

/-- the box of values and the box of objects between two pages -/
structure ContSim (M : Metrics) (s : CContent Leaf LeafPart B C) (t : ObjContent B C) : Prop where
  finished : t.finished = s.finished
  out : t.out = s.out
  cols : t.box.cols = s.cols
  frame : (s.box.getD (CBox.blank s.cols s.gap s.elements true)).cols = s.cols
  open_ : s.finished = false → ∃ E D S, t.box = (s.box.getD (CBox.blank s.cols s.gap s.elements true)).put E D S ∧
    List.Forall₂ (ElSim M []) (s.box.getD (CBox.blank s.cols s.gap s.elements true)).elements E ∧
    List.Forall₂ (ElSim M t.heap) (s.box.getD (CBox.blank s.cols s.gap s.elements true)).sectionDelayed S ∧ S.Pairwise Apart

theorem contSim_new (M : Metrics) (cols : Nat) (gap : Option Rat) (els : List BoxItem) :
    ContSim M (CContent.new cols gap (els.map BoxItem.asValue) : CContent Leaf LeafPart B C) (ObjContent.new cols gap (els.map BoxItem.asObject)) where
  finished := rfl
  out := rfl
  cols := rfl
  frame := rfl
  open_ := by
    intro _
    refine ⟨els.map BoxItem.asObject, [], [], rfl, ?_, .nil, .nil⟩
    show List.Forall₂ _ (els.map BoxItem.asValue) _
    induction els with
    | nil => exact .nil
    | cons e l ih =>
      refine .cons ?_ (ih rfl)
      cases e with
      | par cfg st => exact .fresh cfg st
      | image i => exact .image i

/-- one page -/
theorem page_sim {M : Metrics} {s : CContent Leaf LeafPart B C} {t : ObjContent B C} (h : ContSim M s t) (hf : s.finished = false) (fuel : Nat) (x y w ht : Rat) :
    (∃ e, s.run (leafExec M) fuel x y w ht = .error e ∧ t.run M fuel x y w ht = .error e) ∨
    (∃ s' t', s.run (leafExec M) fuel x y w ht = .ok s' ∧ t.run M fuel x y w ht = .ok t' ∧ ContSim M s' t') ∨
    (1 < s.cols ∧ (s.box.getD (CBox.blank s.cols s.gap s.elements true)).sectionDelayed ≠ [] ∧ ∀ s', s.run (leafExec M) fuel x y w ht = .ok s' → s'.finished = true) := by
  obtain ⟨E, D, S, h1, h2, h3, h4⟩ := h.open_ hf
  have hcols := h.cols
  have hframe := h.frame
  unfold CContent.run ObjContent.run
  rw [hcols]
  by_cases hc : s.cols = 0
  · left
    exact ⟨_, by rw [if_pos hc], by rw [if_pos hc]⟩
  · rw [if_neg hc, if_neg hc]
    simp only
    generalize s.box.getD (CBox.blank s.cols s.gap s.elements true) = f at *
    have e1 : t.box.setup x w y (y - ht) 0 = (f.setup x w y (y - ht) 0).put E S S := by rw [h1]; rfl
    have hsim : BoxSim M (f.setup x w y (y - ht) 0) t.heap E S := ⟨h2, h3, h4, fun _ => rfl⟩
    rw [e1]
    rcases run_sim fuel (f.setup x w y (y - ht) 0) t.heap E S (⟨[], [], []⟩ : COut LeafPart B C) hsim (S := S) ⟨t.heap, h3, h4⟩ (.inr ⟨rfl, rfl⟩) with
      (⟨e, r1, r2⟩ | ⟨a, f', w', H', E', D', S', r1, r2, r3, r4⟩) | ⟨r1, r2, r3⟩
    · left
      exact ⟨e, by rw [r1], by rw [r2]⟩
    · right; left
      rw [r1, r2]
      refine ⟨_, _, rfl, rfl, ?_⟩
      have hfc : f'.cols = s.cols := by rw [r3]; exact hframe
      refine ⟨by simp [h.finished], rfl, hfc, hfc, ?_⟩
      intro hfin
      rcases r4 with rfl | ⟨rfl, r5, r6, r7⟩
      · simp at hfin
      · exact ⟨E', D', S', rfl, r5, r6, r7⟩
    · right; right
      refine ⟨by rw [← hframe]; exact r2, ?_, ?_⟩
      · intro hd
        apply r1
        rw [hd] at h3
        cases h3
        unfold Back
        show List.Forall₂ _ f.sectionDelayed _
        rw [hd]
        exact .nil
      · intro s' hs'
        cases hrun : contentRun (leafExec M) fuel [f.setup x w y (y - ht) 0] (⟨[], [], []⟩ : COut LeafPart B C) with
        | error e => rw [hrun] at hs'; cases hs'
        | ok q =>
          obtain ⟨a, stk, w'⟩ := q
          have ha : a = .cont := r3 _ hrun
          rw [hrun] at hs'
          cases stk with
          | nil => cases hs'
          | cons g l =>
            simp only [Except.ok.injEq] at hs'
            rw [← hs', ha]
            simp

theorem runs_sim {M : Metrics} (fuel : Nat) : ∀ (rects : List (Rat × Rat × Rat × Rat)) (s : CContent Leaf LeafPart B C) (t : ObjContent B C), ContSim M s t →
    shownOf ObjContent.finished (t.runs M fuel rects) = shownOf CContent.finished (s.runs (leafExec M) fuel rects) ∨
    (1 < s.cols ∧ ∀ ps s', s.runs (leafExec M) fuel rects = .ok (ps, s') → s'.finished = true) := by
  intro rects
  induction rects with
  | nil => intro s t h; left; simp [shownOf, CContent.runs, ObjContent.runs, Except.map, h.finished]
  | cons r l ih =>
    intro s t h
    obtain ⟨x, y, w, ht⟩ := r
    unfold CContent.runs ObjContent.runs
    by_cases hf : s.finished = true
    · left
      rw [if_pos hf, if_pos (by rw [h.finished]; exact hf)]
      simp [shownOf, Except.map, h.finished]
    · rw [if_neg hf, if_neg (by rw [h.finished]; exact hf)]
      rcases page_sim h (by simpa using hf) fuel x y w ht with ⟨e, p1, p2⟩ | ⟨s', t', p1, p2, p3⟩ | ⟨p1, -, p2⟩
      · left; rw [p1, p2]; rfl
      · rw [p1, p2]
        have hc : s'.cols = s.cols := by
          unfold CContent.run at p1
          split at p1
          · cases p1
          · simp only at p1
            split at p1
            · cases p1
            · cases p1; rfl
            · cases p1
        rcases ih s' t' p3 with h1 | ⟨h1, h2⟩
        · left
          simp only
          cases hr : s'.runs (leafExec M) fuel l with
          | error e =>
            cases hr' : t'.runs M fuel l with
            | error e' =>
              rw [hr, hr'] at h1
              simpa [shownOf, Except.map] using h1
            | ok q => rw [hr, hr'] at h1; simp [shownOf, Except.map] at h1
          | ok q =>
            cases hr' : t'.runs M fuel l with
            | error e' => rw [hr, hr'] at h1; simp [shownOf, Except.map] at h1
            | ok q' =>
              rw [hr, hr'] at h1
              simp only [shownOf, Except.map, Except.ok.injEq, Prod.mk.injEq] at h1 ⊢
              rw [h1.1, h1.2, p3.out]
              exact ⟨rfl, rfl⟩
        · right
          refine ⟨by rw [← hc]; exact h1, fun ps s2 hr => ?_⟩
          simp only at hr
          cases hr' : s'.runs (leafExec M) fuel l with
          | error e' => rw [hr'] at hr; cases hr
          | ok q =>
            rw [hr'] at hr
            simp only [Except.ok.injEq, Prod.mk.injEq] at hr
            rw [← hr.2]
            exact h2 _ _ hr'
      · right
        refine ⟨p1, fun ps s2 hr => ?_⟩
        cases hs : s.run (leafExec M) fuel x y w ht with
        | error e => rw [hs] at hr; cases hr
        | ok s' =>
          rw [hs] at hr
          simp only at hr
          have hfin := p2 s' hs
          have : s'.runs (leafExec M) fuel l = .ok ([], s') := by
            cases l with
            | nil => rfl
            | cons a l => obtain ⟨_, _, _, _⟩ := a; unfold CContent.runs; rw [if_pos hfin]
          rw [this] at hr
          simp only [Except.ok.injEq, Prod.mk.injEq] at hr
          rw [← hr.2]
          exact hfin

/-- C76 (partial): in a box of one column the paragraphs are as if they were values: every page has the same parts, with the same places, and errors are the same. Partial because of
groups and boxes inside, and because it fails for the last page of several columns (`C76_columns_false`, `C76_indent_false`) and for pages with footnotes (`C76_footnotes_false`). -/
theorem C76_one_column_partial (M : Metrics) (gap : Option Rat) (els : List BoxItem) (fuel : Nat) (rects : List (Rat × Rat × Rat × Rat)) :
    shownOf ObjContent.finished ((ObjContent.new 1 gap (els.map BoxItem.asObject) : ObjContent B C).runs M fuel rects) =
    shownOf CContent.finished ((CContent.new 1 gap (els.map BoxItem.asValue) : CContent Leaf LeafPart B C).runs (leafExec M) fuel rects) := by
  rcases runs_sim (B := B) (C := C) fuel rects _ _ (contSim_new M 1 gap els) with h | ⟨h, -⟩
  · exact h
  · exact absurd h (Nat.lt_irrefl 1)

/-- C76 (partial): with any number of columns, the pages before the last one are the same -/
theorem C76_before_last_partial (M : Metrics) (cols : Nat) (gap : Option Rat) (els : List BoxItem) (fuel : Nat) (rects : List (Rat × Rat × Rat × Rat)) (ps : List (CPart LeafPart))
    (s : CContent Leaf LeafPart B C) (hr : (CContent.new cols gap (els.map BoxItem.asValue)).runs (leafExec M) fuel rects = .ok (ps, s)) (hf : s.finished = false) :
    ∃ t, (ObjContent.new cols gap (els.map BoxItem.asObject) : ObjContent B C).runs M fuel rects = .ok (ps, t) ∧ t.finished = false := by
  rcases runs_sim (B := B) (C := C) fuel rects _ _ (contSim_new M cols gap els) with h | ⟨-, h⟩
  · rw [hr] at h
    cases hr' : (ObjContent.new cols gap (els.map BoxItem.asObject) : ObjContent B C).runs M fuel rects with
    | error e => rw [hr'] at h; simp [shownOf, Except.map] at h
    | ok q =>
      rw [hr'] at h
      simp only [shownOf, Except.map, Except.ok.injEq, Prod.mk.injEq] at h
      exact ⟨q.2, by rw [← h.1], by rw [h.2]; exact hf⟩
  · have := h _ _ hr
    rw [hf] at this
    cases this

/-- C76 (partial): with any number of columns, a box that fits its first page is the same -/
theorem C76_first_page_partial (M : Metrics) (cols : Nat) (gap : Option Rat) (els : List BoxItem) (fuel : Nat) (x y w h : Rat) :
    ((ObjContent.new cols gap (els.map BoxItem.asObject) : ObjContent B C).run M fuel x y w h).map (fun t => (t.out, t.finished)) =
    ((CContent.new cols gap (els.map BoxItem.asValue) : CContent Leaf LeafPart B C).run (leafExec M) fuel x y w h).map fun s => (s.out, s.finished) := by
  rcases page_sim (contSim_new (B := B) (C := C) M cols gap els) rfl fuel x y w h with ⟨e, p1, p2⟩ | ⟨s', t', p1, p2, p3⟩ | ⟨-, p2, -⟩
  · rw [p1, p2]; rfl
  · rw [p1, p2]; simp [Except.map, p3.out, p3.finished]
  · exact absurd rfl p2

/-- the words of a paragraph with `line_height` above 0, or an image -/
def Spec.BoxItem.tall : BoxItem → Prop
  | .par cfg _ => 0 < cfg.lineHeight
  | .image _ => True

/-- C76 (partial): so a box of one column shows the words of its paragraphs and its images once, over any pages, as the code has it -/
theorem C76_words_partial (M : Metrics) (gap : Option Rat) (els : List BoxItem) (hels : ∀ e ∈ els, e.tall) (fuel : Nat) (rects : List (Rat × Rat × Rat × Rat))
    (ps : List (CPart LeafPart)) (t : ObjContent B C) (hr : (ObjContent.new 1 gap (els.map BoxItem.asObject) : ObjContent B C).runs M fuel rects = .ok (ps, t)) :
    ∃ u : List (Nat × CAtom LAtom), u.map Prod.snd = ps.flatMap (boxAtoms leafPartAtoms) ∧ DocOrder (els.map BoxItem.asValue) u ∧
      (∀ i, ofElement u i <+: atomsAt leafAtoms (els.map BoxItem.asValue) i) ∧
      (t.finished = true → ∀ i, ofElement u i = atomsAt leafAtoms (els.map BoxItem.asValue) i) := by
  have h := C76_one_column_partial (B := B) (C := C) M gap els fuel rects
  rw [hr] at h
  cases hv : (CContent.new 1 gap (els.map BoxItem.asValue) : CContent Leaf LeafPart B C).runs (leafExec M) fuel rects with
  | error e => rw [hv] at h; simp [shownOf, Except.map] at h
  | ok q =>
    rw [hv] at h
    simp only [shownOf, Except.map, Except.ok.injEq, Prod.mk.injEq] at h
    obtain ⟨q1, s⟩ := q
    obtain ⟨u, h1, h2, h3, h4⟩ := C70_words_partial M 1 gap (els.map BoxItem.asValue) (by
      intro e he
      obtain ⟨b, hb, rfl⟩ := List.mem_map.1 he
      have := hels b hb
      cases b with
      | par cfg st => exact ⟨rfl, this⟩
      | image i => trivial) fuel rects q1 s hv
    refine ⟨u, by rw [h1, h.1], h2, h3, fun hf => h4 (by rw [← h.2]; exact hf)⟩

/-! ### where it fails -/

/-- a text in Helvetica -/
def look76 (size : Rat) : TLook := ⟨⟨c!"Helvetica", c!"n", c!"F1", size, ⟨none, false⟩, 0⟩, false, ⟨none, false⟩, none⟩

/-- a paragraph with a small mark at its end -/
def par76 (size indent : Rat) (t mark : Str) : BoxItem :=
  .par ⟨[.text (splitWords t) (look76 size) none, .text (splitWords mark) (look76 4) none], indent, c!"l", 1, none⟩ ⟨0, 5, 0, 0, none, false, .normal⟩

/-- C76 fails for the last page of several columns. A paragraph in two columns goes on on the second page. There it finds room, and the columns are balanced: the page is laid out
again, in less and less height. When no line fits any more, the paragraph goes on where it had been before the trial, which was its end: its last words are on no page. -/
theorem C76_columns_false :
    (((ObjContent.new 2 none ([par76 10 0 c!"one two three four five six seven eight" c!"1"].map BoxItem.asObject) : ObjContent Unit Unit).runs (fun _ _ _ => 1 / 2) 100
      [(0, 25, 100, 25), (0, 100, 100, 100)]).toOption.map fun r => (boxWords r.1, r.2.finished)) =
      some ([(0, [c!"one", c!"two", c!"three"]), (107 / 2, [c!"four", c!"five", c!"six", c!"seven"]), (0, []), (107 / 2, [])], true) ∧
    (((CContent.new 2 none ([par76 10 0 c!"one two three four five six seven eight" c!"1"].map BoxItem.asValue) : CContent Leaf LeafPart Unit Unit).runs
      (leafExec fun _ _ _ => 1 / 2) 100 [(0, 25, 100, 25), (0, 100, 100, 100)]).toOption.map fun r => (boxWords r.1, r.2.finished)) =
      some ([(0, [c!"one", c!"two", c!"three"]), (107 / 2, [c!"four", c!"five", c!"six", c!"seven"]), (0, [c!"eight1"])], true) := by
  constructor <;> decide +kernel

/-- the widths of the lines of a part -/
def lineWidths (ps : List (CPart LeafPart)) : List (List Rat) := ps.map fun
  | .leaf (.par _ _ _ _ _ ls) => ls.map fun l => l.1.maxWidth
  | _ => []

/-- C76 fails for the first line of a paragraph that had no room on the first page: after balancing it has lost its indent -/
theorem C76_indent_false :
    (((ObjContent.new 2 none ([par76 10 20 c!"one two" c!""].map BoxItem.asObject) : ObjContent Unit Unit).runs (fun _ _ _ => 1 / 2) 100
      [(0, 5, 100, 5), (0, 100, 100, 100)]).toOption.map fun r => (boxWords r.1, lineWidths r.1)) =
      some ([(0, []), (107 / 2, []), (0, [c!"one", c!"two"])], [[], [], [93 / 2]]) ∧
    (((CContent.new 2 none ([par76 10 20 c!"one two" c!""].map BoxItem.asValue) : CContent Leaf LeafPart Unit Unit).runs (leafExec fun _ _ _ => 1 / 2) 100
      [(0, 5, 100, 5), (0, 100, 100, 100)]).toOption.map fun r => (boxWords r.1, lineWidths r.1)) =
      some ([(0, []), (107 / 2, []), (0, [c!"one"]), (107 / 2, [c!"two"])], [[], [], [53 / 2], [93 / 2]]) := by
  constructor <;> decide +kernel

/-- the footnote of the word `six1` is 65 high -/
def notes76 (ps : List (CPart LeafPart)) : Option Rat := if (boxWords ps).any (fun q => q.2.contains c!"six1") then some 65 else none

/-- C76 fails for pages with footnotes, in one column. A paragraph goes on on the second page, and its mark is there. The page is laid out again in what the footnote leaves, where
no line fits; so the paragraph goes on after its last word, and neither its other words nor the footnote are on any page. -/
theorem C76_footnotes_false :
    (((ObjContent.new 1 none ([par76 30 0 c!"one two three four five six" c!"1"].map BoxItem.asObject) : ObjContent Unit Unit).pages (fun _ _ _ => 1 / 2) 100 notes76 10
      (List.replicate 3 (0, 100, 100, 100))).toOption.map fun r => (boxWords r.1, r.2.finished)) = some ([(0, [c!"one", c!"two", c!"three"]), (0, []), (0, [])], true) ∧
    (((ObjContent.new 1 none ([par76 30 0 c!"one two three four five six" c!"1"].map BoxItem.asObject) : ObjContent Unit Unit).pages (fun _ _ _ => 1 / 2) 100 (fun _ => none) 10
      (List.replicate 3 (0, 100, 100, 100))).toOption.map fun r => (boxWords r.1, r.2.finished)) =
      some ([(0, [c!"one", c!"two", c!"three"]), (0, [c!"four", c!"five", c!"six1"])], true) := by
  constructor <;> decide +kernel

/-! ### a box of one column on two pages -/

section Example
private def ex76Els : List BoxItem := [par76 10 0 c!"one two three four five six seven" c!"a", .image ⟨1, 40, 10, 0, ⟨0, 5, 0, 0, none, false, .flow⟩⟩, par76 10 0 c!"eight nine ten" c!"b"]

/-- on the pages before the last one two columns are the same, too -/
example : (((ObjContent.new 2 none (ex76Els.map BoxItem.asObject) : ObjContent Unit Unit).runs (fun _ _ _ => 1 / 2) 100 [(0, 14, 100, 14)]).toOption.map fun r =>
    (boxWords r.1, r.2.finished)) = some ([(0, [c!"one", c!"two"]), (107 / 2, [c!"three"])], false) := by decide +kernel

example : (((ObjContent.new 1 none (ex76Els.map BoxItem.asObject) : ObjContent Unit Unit).runs (fun _ _ _ => 1 / 2) 100 [(0, 14, 100, 14), (0, 80, 100, 80)]).toOption.map fun r =>
    (boxWords r.1, r.2.finished)) = some ([(0, [c!"one", c!"two", c!"three", c!"four"]), (0, [c!"five", c!"six", c!"sevena"]), (0, [c!"I"]),
      (0, [c!"eight", c!"nine", c!"tenb"])], true) := by decide +kernel

example (M : Metrics) (rects : List (Rat × Rat × Rat × Rat)) (ps : List (CPart LeafPart)) (t : ObjContent Unit Unit)
    (hr : (ObjContent.new 1 none (ex76Els.map BoxItem.asObject) : ObjContent Unit Unit).runs M 100 rects = .ok (ps, t)) (hf : t.finished = true) :
    ∃ u : List (Nat × CAtom LAtom), u.map Prod.snd = ps.flatMap (boxAtoms leafPartAtoms) ∧ (ofElement u 0).length = 7 ∧ ofElement u 1 = [.image 1] ∧ (ofElement u 2).length = 3 := by
  obtain ⟨u, h1, -, -, h4⟩ := C76_words_partial M none ex76Els (by
    intro e he
    simp only [ex76Els, List.mem_cons, List.not_mem_nil, or_false] at he
    rcases he with rfl | rfl | rfl
    · exact one_pos
    · trivial
    · exact one_pos) 100 rects ps t hr
  exact ⟨u, h1, by rw [h4 hf]; decide +kernel, by rw [h4 hf]; rfl, by rw [h4 hf]; decide +kernel⟩
end Example

end Verif
