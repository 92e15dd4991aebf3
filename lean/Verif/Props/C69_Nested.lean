import Verif.Lemmas.NestOrder
/-! C69: tables and content boxes inside each other show every word of their paragraphs and every image once. -/
namespace Verif
open Spec

variable {Q σ B C X : Type}

theorem through_shows {S : NSpec σ} {exec : σ → Rat → Rat → Rat → Rat → Except PyErr (CellOut σ (TagPart LeafPart) B C)} (G : NGood leafPartAtoms S exec) {atoms : TagPart LeafPart → List X}
    {rest : σ → List X} (H : Honest (guard S exec) atoms rest) (rects : List (Rat × Rat × Rat × Rat)) {c : σ} (hfit : ∀ r ∈ rects, S.fit c r.2.2.1)
    {ps : List (TagPart LeafPart)} {b : Bool} (hr : runThrough exec rects c = .ok (ps, b)) :
    ps.flatMap atoms <+: rest c ∧ (b = true → ps.flatMap atoms = rest c) := by
  induction rects generalizing c ps b with
  | nil =>
    cases hr
    exact ⟨List.nil_prefix, fun h => by cases h⟩
  | cons r rects ih =>
    obtain ⟨x, y, w, h⟩ := r
    have hf : S.fit c w := hfit (x, y, w, h) (by simp)
    simp only [runThrough] at hr
    cases h1 : exec c x y w h with
    | error e => rw [h1] at hr; cases hr
    | ok o =>
      rw [h1] at hr
      simp only at hr
      have h1' : guard S exec c x y w h = .ok o := by unfold guard; rw [if_pos hf]; exact h1
      have hs := H.step c x y w h o h1'
      by_cases hfin : o.finished = true
      · rw [if_pos hfin] at hr
        cases hr
        rw [← hs, H.done c x y w h o h1' hfin]
        simp
      · rw [if_neg hfin] at hr
        cases h2 : runThrough exec rects o.next with
        | error e => rw [h2] at hr; cases hr
        | ok q =>
          obtain ⟨ps2, b2⟩ := q
          rw [h2] at hr
          simp only [Except.ok.injEq, Prod.mk.injEq] at hr
          obtain ⟨rfl, rfl⟩ := hr
          obtain ⟨a1, a2⟩ := ih (fun r hr => G.next _ _ _ _ _ _ _ hf h1 (hfit r (by simp [hr]))) h2
          rw [← hs, List.flatMap_append]
          refine ⟨?_, fun hb => by rw [a2 hb]⟩
          exact (List.prefix_append_right_inj _).2 a1

/-- C69 (partial): a paragraph, image, table or box of any depth, run in one rectangle after the other: what is shown of every paragraph and every image is the
beginning of its words (the image), and all of them (the image) once it is finished. Partial because inner tables must not have row spans
(`C69_row_span_false`), margins and borders must not be negative, images must have sizes and room, and inner boxes have one column and no
groups or boxes as elements. -/
theorem C69_nested_partial [DecidableEq B] (M : Metrics) (fuel n : Nat) (c : Nest Leaf B C n) (hfresh : (nestSpec leafSpec B C n).fresh c)
    (rects : List (Rat × Rat × Rat × Rat)) (hfit : ∀ r ∈ rects, (nestSpec leafSpec B C n).fit c r.2.2.1) (ps : List (TagPart LeafPart)) (b : Bool)
    (hr : runThrough (nestExec (leafExec M) fuel n) rects c = .ok (ps, b)) (k : Nat) :
    ps.flatMap (natoms leafPartAtoms k) <+: (nestSpec leafSpec B C n).total k c ∧ (b = true → ps.flatMap (natoms leafPartAtoms k) = (nestSpec leafSpec B C n).total k c) := by
  have G := nest_good (leaf_good (B := B) (C := C) M) fuel n
  obtain ⟨rest, H, hf⟩ := G.rest
  rw [← hf k c hfresh]
  exact through_shows G (H k) rects hfit hr

/-- C69 (partial), order: a part of something that comes after `k` is never shown before a part of `k`, and when something that comes after `k` is shown, `k` has been
shown completely -/
theorem C69_order_partial [DecidableEq B] (M : Metrics) (fuel n : Nat) (c : Nest Leaf B C n) (hfresh : (nestSpec leafSpec B C n).fresh c)
    (rects : List (Rat × Rat × Rat × Rat)) (hfit : ∀ r ∈ rects, (nestSpec leafSpec B C n).fit c r.2.2.1) (htags : (nestTags n c).Nodup) (ps : List (TagPart LeafPart)) (b : Bool)
    (hr : runThrough (nestExec (leafExec M) fuel n) rects c = .ok (ps, b)) (k k' : Nat) (hk : nestBefore k k' n c) :
    (ps.Pairwise fun p q => natoms leafPartAtoms k' p ≠ [] → natoms leafPartAtoms k q = []) ∧
    (ps.flatMap (natoms leafPartAtoms k') ≠ [] → ps.flatMap (natoms leafPartAtoms k) = (nestSpec leafSpec B C n).total k c) := by
  have hne := nestBefore_ne n c htags hk
  have hs := nestBefore_sep n c htags hk
  have GL := leaf_good (B := B) (C := C) M
  have P := nest_pgood GL fuel hne n
  obtain ⟨rest, H, hf⟩ := P.rest
  obtain ⟨h1, -⟩ := through_shows ((nest_good GL fuel n).restrict P.next P.void) H rects (fun r hr => ⟨hfit r hr, hs⟩) hr
  rw [hf c hfresh] at h1
  constructor
  · exact ((partsOrder_of (pa := leafPartAtoms) (before := fun a b => a = k ∧ b = k') (by rintro _ _ ⟨rfl, rfl⟩; exact hne)
      (by rintro _ _ ⟨rfl, rfl⟩; exact ⟨_, _, h1⟩)).2).imp fun h => h k k' ⟨rfl, rfl⟩
  · intro h'
    obtain ⟨a, ha⟩ := List.exists_mem_of_ne_nil _ h'
    exact two_complete h1 ha

/-- C69 (partial): the outermost table may have row spans, but not in its first row: what is shown of every tag can be labelled with the positions of the grid such
that every position has the beginning of what its content holds, and all of it once the table is finished -/
theorem C69_spans_partial [DecidableEq B] (M : Metrics) (fuel n : Nat) (D : TabData (Nest Leaf B C n) B C) (hok : SpansOk D.content)
    (hst : CellStylesOk (D.conf (nestExec (leafExec M) fuel n))) (hcols : D.cols ≠ 0) (hfirst : ∀ j c, cellAt D.content 0 j = some c → c.rows = 0)
    (hblank : (nestSpec leafSpec B C n).void D.blank) (hfresh : ∀ i j c x, cellAt D.content i j = some c → c.content = some x → (nestSpec leafSpec B C n).fresh x)
    (x y w h : Rat) (rects : List (Rat × Rat × Rat × Rat))
    (hfits : ∀ i j c x, cellAt D.content i j = some c → c.content = some x → ∀ r ∈ rects, ∀ i' : Nat, (nestSpec leafSpec B C n).fit x (innerWidth D r.2.2.1 i' j c.cols c.style))
    (ps : List (TagPart LeafPart)) (s : TS (Nest Leaf B C n) (TagPart LeafPart) B C) (hr : (TS.new x y w h).runs (D.conf (nestExec (leafExec M) fuel n)) rects = .ok (ps, s)) (k : Nat) :
    ∃ t : List ((Nat × Nat) × CAtom LAtom), t.map Prod.snd = ps.flatMap (natoms leafPartAtoms k) ∧
      (∀ i j, labelled t i j <+: cellAtoms ((nestSpec leafSpec B C n).total k) D.content i j) ∧
      (s.finished = true → ∀ i j, labelled t i j = cellAtoms ((nestSpec leafSpec B C n).total k) D.content i j) := by
  have G := nest_good (leaf_good (B := B) (C := C) M) fuel n
  obtain ⟨rest, H, hf⟩ := G.rest
  obtain ⟨v1, v2, v3⟩ := G.void _ hblank
  have e := (runs_cong (T := D.conf (nestExec (leafExec M) fuel n)) (Ws := rects.map (·.2.2.1)) (guard_same G) (fun _ _ _ _ => v1 _) (by
    intro i j c hc x hx W hW i'
    obtain ⟨r, hr, rfl⟩ := List.mem_map.1 hW
    exact hfits i j c x hc hx r hr i') rects (fun r hr => List.mem_map_of_mem hr) (LateFine.new x y w h)).1
  rw [← e] at hr
  obtain ⟨t, a1, a2, a3, -⟩ := C33_cells_partial (D.conf (guard (nestSpec leafSpec B C n) (nestExec (leafExec M) fuel n))) (natoms leafPartAtoms k) (rest k) (H k)
    (show rest k D.blank = [] by rw [hf k _ v2, v3]) hok ⟨hst.border, hst.style, hst.cells⟩ hcols hfirst x y w h rects ps s hr
  have hcell : ∀ i j, cellAtoms (rest k) (D.conf (guard (nestSpec leafSpec B C n) (nestExec (leafExec M) fuel n))).content i j = cellAtoms ((nestSpec leafSpec B C n).total k) D.content i j := by
    intro i j
    show cellAtoms (rest k) D.content i j = _
    unfold cellAtoms
    cases hc : cellAt D.content i j with
    | none => rfl
    | some c =>
      cases hx : c.content with
      | none => simp [hx, restOf]
      | some x => simp [hx, restOf, hf k x (hfresh i j c x hc hx)]
  simp only [hcell] at a2 a3
  exact ⟨t, a1, a2, a3⟩

/-! ### a table in a box in a table -/

section Example
private def ex69Look : TLook := ⟨⟨c!"Helvetica", c!"n", c!"F1", 10, ⟨none, false⟩, 0⟩, false, ⟨none, false⟩, none⟩
private def ex69M : Metrics := fun _ _ _ => 1 / 2
private def ex69Par (t : Str) : Leaf := .par ⟨[.text (splitWords t) ex69Look none], 0, c!"l", 1, none⟩ []
private def ex69St : CellStyle Unit := ⟨1, 1, 1, 1, none⟩
private def ex69CSt : CStyle := ⟨0, 5, 0, 0, none, false, .normal⟩

/-- a thing at every depth but 0 -/
def nestLeaf (n tag : Nat) (l : Leaf) : Nest Leaf Unit Unit (n + 1) := Node.leaf tag l

def nestTable (n : Nat) (content : List (List (Option (Cell (Nest Leaf Unit Unit (n + 1)) Unit)))) (widths : List Rat) : TabData (Nest Leaf Unit Unit (n + 1)) Unit Unit :=
  ⟨content, widths.length, widths, fun _ _ _ => ⟨1, ()⟩, fun _ _ => none, ex69St, nestLeaf n 0 (.par ⟨[], 0, c!"l", 1, none⟩ [])⟩

def nestCell {σ : Type} (c : σ) : Option (Cell σ Unit) := some ⟨some c, 0, 0, ex69St⟩

/-- the words with tag `k` -/
def tagWords (k : Nat) (ps : List (TagPart LeafPart)) : List Str := (ps.flatMap (natoms leafPartAtoms k)).map fun
  | .text (.word w) => (w.map fun x => x.1).flatten
  | .text (.image _) => c!"I"
  | .image _ => c!"B"

private def ex69Inner : Nest Leaf Unit Unit 2 := Node.table (nestTable 0 [[nestCell (nestLeaf 0 1 (ex69Par c!"one two three four five six")),
  nestCell (nestLeaf 0 2 (.image ⟨c!"im", 20, 10, []⟩ false))], [nestCell (nestLeaf 0 3 (ex69Par c!"seven")), none]] [1/2, 1/2]) []
private def ex69Box : Nest Leaf Unit Unit 3 := Node.box none [.leaf (nestLeaf 1 4 (ex69Par c!"before the table")) ex69CSt, .image ⟨5, 40, 10, 0, ex69CSt⟩,
  .leaf ex69Inner ex69CSt] []
private def ex69Outer : Nest Leaf Unit Unit 4 := Node.table (nestTable 2 [[nestCell ex69Box, nestCell (nestLeaf 2 6 (ex69Par c!"beside"))]] [2/3, 1/3]) []

example : ((runThrough (nestExec (leafExec ex69M) 100 4) [(0, 45, 200, 45), (0, 45, 200, 45), (0, 45, 200, 45), (0, 60, 200, 60)] ex69Outer).toOption.map fun r =>
    ([1, 2, 3, 4, 5, 6].map fun k => tagWords k r.1, r.2)) =
    some ([[c!"one", c!"two", c!"three", c!"four", c!"five", c!"six"], [c!"I"], [c!"seven"], [c!"before", c!"the", c!"table"], [c!"B"], [c!"beside"]], true) := by
  decide +kernel

theorem cellAt_some {σ C : Type} {content : List (List (Option (Cell σ C)))} {i j : Nat} {c : Cell σ C} (h : cellAt content i j = some c) :
    ∃ row, content[i]? = some row ∧ row[j]? = some (some c) := by
  unfold cellAt at h
  cases hr : content[i]? with
  | none => simp [hr] at h
  | some row =>
    refine ⟨row, rfl, ?_⟩
    rw [hr, Option.bind_some] at h
    cases hj : row[j]? with
    | none => simp [hj] at h
    | some x => rw [hj, Option.join_some] at h; rw [h]

private theorem ex69_one {σ : Type} {a b c : Cell σ Unit} {i j : Nat} (h : cellAt [[some a, some b]] i j = some c) : i = 0 ∧ (j = 0 ∧ c = a ∨ j = 1 ∧ c = b) := by
  obtain ⟨row, h1, h2⟩ := cellAt_some h
  rcases i with _ | i
  · cases h1
    rcases j with _ | _ | j
    · exact ⟨rfl, Or.inl ⟨rfl, by simpa using h2.symm⟩⟩
    · exact ⟨rfl, Or.inr ⟨rfl, by simpa using h2.symm⟩⟩
    · simp at h2
  · simp at h1

private theorem ex69_two {σ : Type} {a b c d : Cell σ Unit} {i j : Nat} (h : cellAt [[some a, some b], [some d, none]] i j = some c) :
    (i = 0 ∧ j = 0 ∧ c = a) ∨ (i = 0 ∧ j = 1 ∧ c = b) ∨ (i = 1 ∧ j = 0 ∧ c = d) := by
  obtain ⟨row, h1, h2⟩ := cellAt_some h
  rcases i with _ | _ | i
  · cases h1
    rcases j with _ | _ | j
    · exact Or.inl ⟨rfl, rfl, by simpa using h2.symm⟩
    · exact Or.inr (Or.inl ⟨rfl, rfl, by simpa using h2.symm⟩)
    · simp at h2
  · cases h1
    rcases j with _ | _ | j
    · exact Or.inr (Or.inr ⟨rfl, rfl, by simpa using h2.symm⟩)
    · simp at h2
    · simp at h2
  · simp at h1

private theorem ex69_inner {W : Rat} (hW : 10 ≤ W) : (nestSpec leafSpec Unit Unit 2).fit ex69Inner W := by
  refine ⟨?_, ?_, fun _ _ _ => by norm_num [nestTable], by norm_num [nestTable, ex69St], ?_, by decide, ⟨rfl, by norm_num, rfl⟩, ?_, ?_, by decide⟩
  · intro i j c hc i' j' h1 h2 h3 h4 h5
    rcases ex69_two hc with ⟨-, -, rfl⟩ | ⟨-, -, rfl⟩ | ⟨-, -, rfl⟩ <;> exact absurd (by rw [Prod.mk.injEq]; constructor <;> (simp only at h2 h4; omega)) h5
  · intro i j c hc
    rcases ex69_two hc with ⟨-, -, rfl⟩ | ⟨-, -, rfl⟩ | ⟨-, -, rfl⟩ <;> rfl
  · intro i j c hc
    rcases ex69_two hc with ⟨-, -, rfl⟩ | ⟨-, -, rfl⟩ | ⟨-, -, rfl⟩ <;> norm_num [ex69St]
  · intro i j c x hc hx
    rcases ex69_two hc with ⟨-, -, rfl⟩ | ⟨-, -, rfl⟩ | ⟨-, -, rfl⟩ <;> cases hx <;> rfl
  · intro i j c x hc hx W' hW' i'
    have : W' = W := by simpa using hW'
    subst this
    rcases ex69_two hc with ⟨-, rfl, rfl⟩ | ⟨-, rfl, rfl⟩ | ⟨-, rfl, rfl⟩ <;> cases hx
    · show (0 : Rat) < 1; norm_num
    · show 0 < 20 ∧ 0 < 10 ∧ 0 < innerWidth _ _ _ _ _ _
      refine ⟨by norm_num, by norm_num, ?_⟩
      norm_num [innerWidth, nestTable, cellWidth, ex69St]
      linarith
    · show (0 : Rat) < 1; norm_num

private theorem ex69_outer : (nestSpec leafSpec Unit Unit 4).fit ex69Outer 200 := by
  refine ⟨?_, ?_, fun _ _ _ => by norm_num [nestTable], by norm_num [nestTable, ex69St], ?_, by decide, ⟨rfl, by norm_num, rfl⟩, ?_, ?_, by decide⟩
  · intro i j c hc i' j' h1 h2 h3 h4 h5
    rcases ex69_one hc with ⟨-, ⟨-, rfl⟩ | ⟨-, rfl⟩⟩ <;> exact absurd (by rw [Prod.mk.injEq]; constructor <;> (simp only at h2 h4; omega)) h5
  · intro i j c hc
    rcases ex69_one hc with ⟨-, ⟨-, rfl⟩ | ⟨-, rfl⟩⟩ <;> rfl
  · intro i j c hc
    rcases ex69_one hc with ⟨-, ⟨-, rfl⟩ | ⟨-, rfl⟩⟩ <;> norm_num [ex69St]
  · intro i j c x hc hx
    rcases ex69_one hc with ⟨-, ⟨-, rfl⟩ | ⟨-, rfl⟩⟩ <;> cases hx <;> rfl
  · intro i j c x hc hx W hW i'
    have : W = 200 := by simpa using hW
    subst this
    rcases ex69_one hc with ⟨-, ⟨rfl, rfl⟩ | ⟨rfl, rfl⟩⟩ <;> cases hx
    · have hw : innerWidth (nestTable 2 [[nestCell ex69Box, nestCell (nestLeaf 2 6 (ex69Par c!"beside"))]] [2/3, 1/3]) 200 i' 0 0 ex69St = 391 / 3 := by
        norm_num [innerWidth, nestTable, cellWidth, ex69St]
      show (nestSpec leafSpec Unit Unit 3).fit ex69Box (innerWidth (nestTable 2 [[nestCell ex69Box, nestCell (nestLeaf 2 6 (ex69Par c!"beside"))]] [2/3, 1/3]) 200 i' 0 0 ex69St)
      rw [hw]
      refine ⟨?_, ?_, ?_, by decide⟩
      · intro e he
        simp only [List.mem_cons, List.not_mem_nil, or_false] at he
        rcases he with rfl | rfl | rfl
        · norm_num [ElTidy, ex69CSt]
        · norm_num [ElTidy, ex69CSt]
          intro m hm
          cases hm
        · norm_num [ElTidy, ex69CSt]
      · intro c st he
        simp only [List.mem_cons, List.not_mem_nil, or_false, CEl.leaf.injEq, reduceCtorEq, false_or] at he
        rcases he with ⟨rfl, rfl⟩ | ⟨rfl, rfl⟩ <;> rfl
      · intro c st he W hW
        have : W = 391 / 3 := by simpa using hW
        subst this
        simp only [List.mem_cons, List.not_mem_nil, or_false, CEl.leaf.injEq, reduceCtorEq, false_or] at he
        rcases he with ⟨rfl, rfl⟩ | ⟨rfl, rfl⟩
        · show (0 : Rat) < 1; norm_num
        · exact ex69_inner (by norm_num [ex69CSt])
    · show (0 : Rat) < 1; norm_num

/-- the theorem applies to it, in any rectangles 200 points wide -/
example (heights : List Rat) (ps : List (TagPart LeafPart)) (hr : runThrough (nestExec (leafExec ex69M) 1000 4) (heights.map fun h => (0, h, 200, h)) ex69Outer = .ok (ps, true)) :
    tagWords 1 ps = [c!"one", c!"two", c!"three", c!"four", c!"five", c!"six"] ∧ tagWords 5 ps = [c!"B"] := by
  have h := C69_nested_partial ex69M 1000 4 ex69Outer rfl (heights.map fun h => (0, h, 200, h)) (by
    intro r hr
    obtain ⟨h, -, rfl⟩ := List.mem_map.1 hr
    exact ex69_outer) ps true hr
  exact ⟨by unfold tagWords; rw [(h 1).2 rfl]; decide +kernel, by unfold tagWords; rw [(h 5).2 rfl]; decide +kernel⟩

/-- the paragraph in the first row of the innermost table has been shown completely when that of the second row is shown, wherever the rectangles end -/
example (heights : List Rat) (ps : List (TagPart LeafPart)) (b : Bool) (hr : runThrough (nestExec (leafExec ex69M) 1000 4) (heights.map fun h => (0, h, 200, h)) ex69Outer = .ok (ps, b))
    (h : tagWords 3 ps ≠ []) : tagWords 1 ps = [c!"one", c!"two", c!"three", c!"four", c!"five", c!"six"] := by
  have hk : nestBefore 1 3 4 ex69Outer := Or.inr ⟨0, 0, _, _, rfl, rfl, Or.inr ⟨_, _, List.mem_cons_of_mem _ (List.mem_cons_of_mem _ List.mem_cons_self),
    Or.inl ⟨0, 1, 0, 0, _, _, by decide, rfl, rfl, List.mem_cons_self, List.mem_cons_self⟩⟩⟩
  have h2 := (C69_order_partial ex69M 1000 4 ex69Outer rfl (heights.map fun h => (0, h, 200, h)) (by
    intro r hr
    obtain ⟨h, -, rfl⟩ := List.mem_map.1 hr
    exact ex69_outer) (by decide) ps b hr 1 3 hk).2 (by
      intro h'
      exact h (by unfold tagWords; rw [h']; rfl))
  unfold tagWords
  rw [h2]
  decide +kernel

/-- C69 fails if all the cells of the first row of an inner table span rows: what they show in the first rectangle is lost -/
theorem C69_row_span_false : ∃ (D : TabData (Nest Leaf Unit Unit 1) Unit Unit) (c : Nest Leaf Unit Unit 3), c = Node.table (nestTable 1 [[nestCell (Node.table D [])]] [1]) [] ∧
    SpansOk D.content ∧
    (((runThrough (nestExec (leafExec fun _ _ _ => 1 / 2) 100 3) [(0, 30, 60, 30), (0, 80, 60, 80)] c).toOption.map fun r => (tagWords 1 r.1, r.2)) =
      some ([c!"five", c!"six"], true)) ∧
    ((nestSpec leafSpec Unit Unit 3).total 1 c).length = 6 := by
  refine ⟨nestTable 0 [[some ⟨some (nestLeaf 0 1 (ex69Par c!"one two three four five six")), 0, 1, ex69St⟩], [none]] [1], _, rfl, ?_, by decide +kernel, by decide +kernel⟩
  intro i j c hc i' j' h1 h2 h3 h4 h5
  have h0 : i = 0 ∧ j = 0 := by
    obtain ⟨row, h1, h2⟩ := cellAt_some hc
    rcases i with _ | _ | i
    · cases h1
      rcases j with _ | j <;> simp at h2 ⊢
    · cases h1
      rcases j with _ | j <;> simp at h2
    · simp [nestTable] at h1
  obtain ⟨rfl, rfl⟩ := h0
  have : c = ⟨some (nestLeaf 0 1 (ex69Par c!"one two three four five six")), 0, 1, ex69St⟩ := by simpa [cellAt, nestTable] using hc.symm
  subst this
  simp only at h2 h4
  have hj : j' = 0 := by omega
  have hi : i' = 1 := by
    have : i' ≠ 0 := by rintro rfl; exact h5 (by rw [hj])
    omega
  subst hi hj
  rfl

end Example
end Verif
