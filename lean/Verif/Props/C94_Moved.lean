import Verif.Lemmas.NestMoved
/-! **C94** What is in a table or content box is laid out in the same way wherever its rectangle is: a rectangle of the same size in another place gets the same things, all moved by the same distance. -/
namespace Verif

variable {Λ Q σ P B C : Type}

theorem follows_shifts {exec : σ → Rat → Rat → Rat → Rat → Except PyErr (CellOut σ P B C)} {m : Rat → Rat → P → P} (h : Spec.FollowsRect exec m) (dx dy : Rat) :
    Shifts exec exec id (m dx dy) dx dy := fun c x y w k => h.2 c x y w k dx dy

mutual
theorem CEl.mp_id : ∀ a : CEl σ, a.mp id = a
  | .leaf c st => rfl
  | .image i => rfl
  | .group l t st => by
    have : (GEl.mp id : GEl σ → GEl σ) = id := by funext g; cases g <;> rfl
    simp [CEl.mp, this]
  | .child cols gap els st => by simp only [CEl.mp]; rw [CEl.mps_id els]

theorem CEl.mps_id : ∀ l : List (CEl σ), CEl.mps id l = l
  | [] => rfl
  | a :: l => by simp only [CEl.mps]; rw [CEl.mp_id a, CEl.mps_id l]
end

theorem mp_id_list (l : List (CEl σ)) : l.map (CEl.mp id) = l := by rw [← CEl.mps_eq, CEl.mps_id]

theorem tconf_mp_id (T : TConf σ P B C) : T.mp id T.exec = T := by
  have h : (Cell.mp id : Cell σ C → Cell σ C) = id := by funext c; simp [Cell.mp]
  simp [TConf.mp, h]

/-- **C94**, content boxes: any number of columns, with boxes in boxes, groups and images, of paragraphs, images and tables that follow their rectangles -/
theorem C94_box {exec : σ → Rat → Rat → Rat → Rat → Except PyErr (CellOut σ P B C)} {m : Rat → Rat → P → P} (h : Spec.FollowsRect exec m) (fuel cols : Nat) (gap : Option Rat) (els : List (CEl σ))
    (l : Spec.Moves) :
    Spec.boxDrawings exec fuel l.after (CContent.new cols gap els) = (Spec.boxDrawings exec fuel l.before (CContent.new cols gap els)).map (l.move fun dx dy => CPart.mv (m dx dy) dx dy) := by
  have h1 := boxDrawings_mv (follows_shifts h) fuel l _ _ (box_new_alike id cols gap els)
  rwa [mp_id_list] at h1

/-- **C94**, tables: with all spans, borders and fills -/
theorem C94_table [DecidableEq B] (T : TConf σ P B C) {m : Rat → Rat → P → P} (h : Spec.FollowsRect T.exec m) (l : Spec.Moves) :
    Spec.tableDrawings T l.after (TS.new 0 0 0 0) = (Spec.tableDrawings T l.before (TS.new 0 0 0 0)).map (l.move m) := by
  have h1 := tableDrawings_mv (follows_shifts h) l _ _ (table_new_alike id)
  rwa [tconf_mp_id] at h1

section Nested
variable [DecidableEq B] {leaf : Λ → Rat → Rat → Rat → Rat → Except PyErr (CellOut Λ Q B C)} {m : Rat → Rat → Q → Q}

/-- two things that differ only in the places they remember, in rectangles of the same size -/
theorem nest_twice (h : Spec.FollowsRect leaf m) (fuel n : Nat) (c c' : Nest Λ B C n) (hc : Nest.forget n c' = Nest.forget n c) (x y w k dx dy : Rat) :
    (∃ e, nestExec leaf fuel n c x y w k = .error e ∧ nestExec leaf fuel n c' (x + dx) (y + dy) w k = .error e) ∨
    ∃ o o', nestExec leaf fuel n c x y w k = .ok o ∧ nestExec leaf fuel n c' (x + dx) (y + dy) w k = .ok o' ∧ Nest.forget n o'.next = Nest.forget n o.next ∧
      (⟨o'.parts, o'.lines, o'.fills, o'.height, o'.finished⟩ : Spec.RunLeft (TagPart Q) B C) = Spec.RunLeft.mv (TagPart.mv m) dx dy ⟨o.parts, o.lines, o.fills, o.height, o.finished⟩ := by
  have h1 := nest_shifts h.1 (follows_shifts h) fuel n dx dy c x y w k
  have h2 := nest_shifts h.1 (follows_shifts h) fuel n 0 0 c' (x + dx) (y + dy) w k
  rw [hc, add_zero, add_zero, h1] at h2
  cases e1 : nestExec leaf fuel n c x y w k with
  | error e =>
    rw [e1] at h2
    cases e2 : nestExec leaf fuel n c' (x + dx) (y + dy) w k with
    | error e' => rw [e2] at h2; exact .inl ⟨e, rfl, by rw [show e' = e from (by simpa [Except.map] using h2.symm)]⟩
    | ok o' => rw [e2] at h2; simp [Except.map] at h2
  | ok o =>
    rw [e1] at h2
    cases e2 : nestExec leaf fuel n c' (x + dx) (y + dy) w k with
    | error e' => rw [e2] at h2; simp [Except.map] at h2
    | ok o' =>
      rw [e2] at h2
      have h3 : CellOut.mv (Nest.forget n) (TagPart.mv m dx dy) dx dy o = CellOut.mv (Nest.forget n) (TagPart.mv m 0 0) 0 0 o' := by simpa [Except.map] using h2
      have h4 := left_mv_zero h.1 (⟨o'.parts, o'.lines, o'.fills, o'.height, o'.finished⟩ : Spec.RunLeft (TagPart Q) B C)
      simp only [CellOut.mv, CellOut.mk.injEq] at h3
      obtain ⟨a1, a2, a3, a4, a5, a6⟩ := h3
      refine .inr ⟨o, o', rfl, rfl, a6.symm, ?_⟩
      rw [← h4]
      simp only [Spec.RunLeft.mv]
      rw [a1, a2, a3, a4, a5]

theorem drawings_twice (h : Spec.FollowsRect leaf m) (fuel n : Nat) (l : Spec.Moves) : ∀ c c' : Nest Λ B C n, Nest.forget n c' = Nest.forget n c →
    Spec.drawings (nestExec leaf fuel n) l.after c' = (Spec.drawings (nestExec leaf fuel n) l.before c).map (l.move (TagPart.mv m)) := by
  induction l with
  | nil => exact fun _ _ _ => rfl
  | cons r l ih =>
    intro c c' hc
    obtain ⟨⟨x, y, w, k⟩, dx, dy⟩ := r
    change Spec.drawings (nestExec leaf fuel n) ((x + dx, y + dy, w, k) :: Spec.Moves.after l) c' = (Spec.drawings (nestExec leaf fuel n) ((x, y, w, k) :: Spec.Moves.before l) c).map _
    simp only [Spec.drawings]
    rcases nest_twice h fuel n c c' hc x y w k dx dy with ⟨e, e1, e2⟩ | ⟨o, o', e1, e2, hn, ho⟩
    · rw [e1, e2]; rfl
    · rw [e1, e2]
      simp only [Spec.RunLeft.mv, Spec.RunLeft.mk.injEq] at ho
      obtain ⟨a1, a2, a3, a4, a5⟩ := ho
      simp only [a5]
      by_cases hf : o.finished = true
      · rw [if_pos hf, if_pos hf, a1, a2, a3, a4]; simp [Except.map, Spec.Moves.move, Spec.RunLeft.mv]
      · rw [if_neg hf, if_neg hf, ih _ _ hn]
        cases Spec.drawings (nestExec leaf fuel n) (Spec.Moves.before l) o.next with
        | error e => rfl
        | ok ds => simp only [Except.map]; rw [a1, a2, a3, a4]; rfl

/-- **C94**, tables and content boxes inside each other. Missing: boxes of several columns inside tables, which the model of nested things does not have. -/
theorem C94_nested_partial (h : Spec.FollowsRect leaf m) (fuel n : Nat) (c : Nest Λ B C n) (l : Spec.Moves) :
    Spec.drawings (nestExec leaf fuel n) l.after c = (Spec.drawings (nestExec leaf fuel n) l.before c).map (l.move (TagPart.mv m)) :=
  drawings_twice h fuel n l c c rfl

end Nested

/-- the same rectangles, not moved -/
def Spec.Moves.still (l : Spec.Moves) : Spec.Moves := l.after.map fun r => (r, 0, 0)

theorem still_before (l : Spec.Moves) : l.still.before = l.after := by
  simp [Spec.Moves.still, Spec.Moves.before, List.map_map, Function.comp_def]

theorem still_after (l : Spec.Moves) : l.still.after = l.after := by
  simp only [Spec.Moves.still, Spec.Moves.after, List.map_map, Function.comp_def, add_zero]

theorem boxDrawings_length (exec : σ → Rat → Rat → Rat → Rat → Except PyErr (CellOut σ P B C)) (fuel : Nat) (l : List Spec.RunRect) : ∀ (s : CContent σ P B C) (ds : List (Spec.RunLeft (CPart P) B C)),
    Spec.boxDrawings exec fuel l s = .ok ds → ds.length ≤ l.length := by
  induction l with
  | nil => intro s ds h; cases h; exact le_refl _
  | cons r l ih =>
    intro s ds h
    obtain ⟨x, y, w, k⟩ := r
    simp only [Spec.boxDrawings] at h
    cases e1 : s.run exec fuel x y w k with
    | error e => rw [e1] at h; cases h
    | ok s1 =>
      rw [e1] at h
      dsimp only at h
      by_cases hf : s1.finished = true
      · rw [if_pos hf] at h; cases h; simp
      · rw [if_neg hf] at h
        cases e2 : Spec.boxDrawings exec fuel l s1 with
        | error e => rw [e2] at h; cases h
        | ok ds' => rw [e2] at h; cases h; simpa using ih s1 ds' e2

theorem move_still {m : Rat → Rat → P → P} (hz : ∀ d : Spec.RunLeft P B C, d.mv m 0 0 = d) (l : Spec.Moves) (ds : List (Spec.RunLeft P B C)) (h : ds.length ≤ l.length) : l.still.move m ds = ds := by
  induction ds generalizing l with
  | nil => cases l <;> rfl
  | cons d ds ih => cases l with
    | nil => simp at h
    | cons r l =>
      have := ih l (by simpa using h)
      simp only [Spec.Moves.move, Spec.Moves.still, Spec.Moves.after, List.map, List.zipWith, hz] at this ⊢
      rw [this]

theorem cpart_left_zero {m : Rat → Rat → Q → Q} (hm : ∀ q, m 0 0 q = q) (d : Spec.RunLeft (CPart (TagPart Q)) B C) : d.mv (fun dx dy => CPart.mv (TagPart.mv m dx dy) dx dy) 0 0 = d := by
  have h1 : ∀ p : CPart (TagPart Q), CPart.mv (TagPart.mv m 0 0) 0 0 p = p := by
    intro p
    rcases p with (p | _) | _ <;> simp [TagPart.mv, CPart.mv, hm]
  have h2 : ∀ f : TFill C, f.mv 0 0 = f := by intro f; simp [TFill.mv]
  obtain ⟨ps, ls, fs, h, b⟩ := d
  simp only [Spec.RunLeft.mv]
  congr 1
  · exact (List.map_congr_left fun p _ => h1 p).trans (List.map_id _)
  · exact (List.map_congr_left fun p _ => line_mv_zero p).trans (List.map_id _)
  · exact (List.map_congr_left fun p _ => h2 p).trans (List.map_id _)

/-- **C94**, content boxes of any number of columns whose elements are tables with tables and boxes inside each other. Missing: boxes of several columns inside tables. -/
theorem C94_contents_partial [DecidableEq B] {leaf : Λ → Rat → Rat → Rat → Rat → Except PyErr (CellOut Λ Q B C)} {m : Rat → Rat → Q → Q} (h : Spec.FollowsRect leaf m) (fuel n cols : Nat) (gap : Option Rat)
    (els : List (CEl (Nest Λ B C n))) (l : Spec.Moves) :
    Spec.boxDrawings (nestExec leaf fuel n) fuel l.after (CContent.new cols gap els) =
      (Spec.boxDrawings (nestExec leaf fuel n) fuel l.before (CContent.new cols gap els)).map (l.move fun dx dy => CPart.mv (TagPart.mv m dx dy) dx dy) := by
  have hE := nest_shifts h.1 (follows_shifts h) fuel n
  have h1 := boxDrawings_mv hE fuel l _ _ (box_new_alike (Nest.forget n) cols gap els)
  have h2 := boxDrawings_mv hE fuel l.still _ _ (box_new_alike (Nest.forget n) cols gap els)
  rw [still_after, still_before, h1] at h2
  rw [h2]
  cases e1 : Spec.boxDrawings (nestExec leaf fuel n) fuel l.after (CContent.new cols gap els) with
  | error k => rfl
  | ok ds =>
    have hl := boxDrawings_length _ _ _ _ _ e1
    simp only [Except.map]
    rw [move_still (cpart_left_zero h.1) l ds (by simpa [Spec.Moves.after] using hl)]

/-- the paragraphs and images of documents follow their rectangles -/
theorem C94_leaves (T : TextEnv) : Spec.FollowsRect (docExec T) DocPart.mv := by
  refine ⟨fun p => by cases p <;> simp [DocPart.mv], ?_⟩
  intro c x y w h dx dy
  cases c with
  | par a rects correct =>
    simp only [docExec, docParExec]
    by_cases hf : (textRuns T.metrics a.cfg rects TPos.init).1.finished = true
    · rw [if_pos hf, if_pos hf]; rfl
    · rw [if_neg hf, if_neg hf]
      cases textOut T.fmt T.metrics T.encs a.cfg a.enc w h (textRuns T.metrics a.cfg rects TPos.init).1 correct <;> rfl
  | image im shown =>
    cases shown with
    | true => rfl
    | false =>
      simp only [docExec, docImageExec]
      cases scaled w im.height im.width with
      | error e => rfl
      | ok ih =>
        dsimp only
        by_cases hh : ih < h
        · rw [if_pos hh, if_pos hh]
          simp only [Except.map, List.map, DocPart.mv]
          rw [show y + dy - ih = y - ih + dy by ring]
        · rw [if_neg hh, if_neg hh]; rfl

/-- **C94** for the things of documents. Missing: boxes of several columns inside tables. -/
theorem C94_document_partial (T : TextEnv) (fuel n : Nat) (c : DocNest n) (l : Spec.Moves) :
    Spec.drawings (docNestExec T fuel n) l.after c = (Spec.drawings (docNestExec T fuel n) l.before c).map (l.move (TagPart.mv DocPart.mv)) :=
  C94_nested_partial (C94_leaves T) fuel n c l

/-! ### Examples -/

/-- blocks of some height that are drawn if there is room -/
def slabExec (b x y w h : Rat) : Except PyErr (CellOut Rat (Rat × Rat × Rat × Rat) Nat Nat) :=
  if b ≤ h then .ok ⟨[(x, y, w, b)], [], [], b, true, b⟩ else .ok ⟨[], [], [], 0, false, b⟩

def slabMv (dx dy : Rat) (p : Rat × Rat × Rat × Rat) : Rat × Rat × Rat × Rat := (p.1 + dx, p.2.1 + dy, p.2.2)

theorem slab_follows : Spec.FollowsRect slabExec slabMv := by
  refine ⟨fun p => by simp [slabMv], ?_⟩
  intro c x y w h dx dy
  unfold slabExec
  by_cases hh : c ≤ h
  · rw [if_pos hh, if_pos hh]; rfl
  · rw [if_neg hh, if_neg hh]; rfl

def slabStyle : CStyle := ⟨1, 2, 0, 0, none, false, .normal⟩

/-- two columns: three blocks and an image, over two rectangles -/
def slabBox : CContent Rat (Rat × Rat × Rat × Rat) Nat Nat :=
  .new 2 (some 10) [.leaf 30 slabStyle, .leaf 20 slabStyle, .image ⟨7, 20, 10, 0, slabStyle⟩, .leaf 40 slabStyle, .leaf 35 slabStyle]

/-- the second rectangle is moved otherwise than the first -/
def slabMoves : Spec.Moves := [((0, 100, 110, 60), 25, -7), ((0, 100, 110, 60), 300, 500)]

def slabShown (l : List Spec.RunRect) : Option (List (Spec.RunLeft (CPart (Rat × Rat × Rat × Rat)) Nat Nat)) :=
  match Spec.boxDrawings slabExec 200 l slabBox with
  | .ok ds => some ds
  | .error _ => none

set_option synthInstance.maxSize 2000 in
set_option synthInstance.maxHeartbeats 400000 in
example : slabShown slabMoves.before =
    some [⟨[.leaf (0, 100, 50, 30), .leaf (0, 67, 50, 20), .image 7 60 75 50 25], [], [], 60, false⟩, ⟨[.leaf (0, 100, 50, 40), .leaf (60, 100, 50, 35)], [], [], 645 / 16, true⟩] := by decide +kernel

set_option synthInstance.maxSize 2000 in
set_option synthInstance.maxHeartbeats 400000 in
example : slabShown slabMoves.after =
    some [⟨[.leaf (25, 93, 50, 30), .leaf (25, 60, 50, 20), .image 7 85 68 50 25], [], [], 60, false⟩, ⟨[.leaf (300, 600, 50, 40), .leaf (360, 600, 50, 35)], [], [], 645 / 16, true⟩] := by
  decide +kernel

/-- the theorem on these boxes -/
example : Spec.boxDrawings slabExec 200 slabMoves.after slabBox = (Spec.boxDrawings slabExec 200 slabMoves.before slabBox).map (slabMoves.move fun dx dy => CPart.mv (slabMv dx dy) dx dy) :=
  C94_box slab_follows _ _ _ _ _

/-- a table of two columns and two rows, with borders and a fill -/
def slabTable : TConf Rat (Rat × Rat × Rat × Rat) Nat Nat where
  content := [[some ⟨some 20, 0, 0, ⟨1, 1, 1, 1, some 9⟩⟩, some ⟨some 10, 0, 0, ⟨1, 1, 1, 1, none⟩⟩], [some ⟨some 15, 0, 0, ⟨1, 1, 1, 1, none⟩⟩, none]]
  cols := 2
  widths := [1 / 4, 3 / 4]
  border := fun _ _ _ => ⟨2, 5⟩
  fillDef := fun _ _ => none
  style := ⟨1, 1, 1, 1, none⟩
  blank := 0
  exec := slabExec

def slabDrawn (ls : List (Rat × Rat × Rat × Rat)) : List (BLine Nat) := ls.map fun l => ⟨l.1, l.2.1, l.2.2.1, some l.2.2.2, 2, 5⟩

example : (Spec.tableDrawings slabTable slabMoves.before (TS.new 0 0 0 0)).toOption =
    some [⟨[(2, 98, 47 / 2, 20), (59 / 2, 98, 157 / 2, 10), (2, 74, 47 / 2, 15), (59 / 2, 74, 157 / 2, 0)],
      slabDrawn [(-1, 100, 111, 100), (-1, 76, 111, 76), (-1, 57, 111, 57), (0, 101, 0, 56), (55 / 2, 101, 55 / 2, 56), (110, 101, 110, 56)],
      [⟨0, 76, 55 / 2, 24, 9, false⟩], 43, true⟩] := by decide +kernel

example : (Spec.tableDrawings slabTable slabMoves.after (TS.new 0 0 0 0)).toOption =
    some [⟨[(27, 91, 47 / 2, 20), (109 / 2, 91, 157 / 2, 10), (27, 67, 47 / 2, 15), (109 / 2, 67, 157 / 2, 0)],
      slabDrawn [(24, 93, 136, 93), (24, 69, 136, 69), (24, 50, 136, 50), (25, 94, 25, 49), (105 / 2, 94, 105 / 2, 49), (135, 94, 135, 49)],
      [⟨25, 69, 55 / 2, 24, 9, false⟩], 43, true⟩] := by decide +kernel

/-- the theorem on these tables -/
example : Spec.tableDrawings slabTable slabMoves.after (TS.new 0 0 0 0) = (Spec.tableDrawings slabTable slabMoves.before (TS.new 0 0 0 0)).map (slabMoves.move slabMv) :=
  C94_table _ slab_follows _

/-- a box in a table in a table -/
def slabNest : Nest Rat Nat Nat 3 :=
  .table ⟨[[some ⟨some (.table ⟨[[some ⟨some (.leaf 1 20), 0, 0, ⟨1, 1, 1, 1, none⟩⟩], [some ⟨some (.leaf 2 40), 0, 0, ⟨1, 1, 1, 1, none⟩⟩]], 1, [1], fun _ _ _ => ⟨2, 5⟩, fun _ _ => none, ⟨1, 1, 1, 1, none⟩,
      .leaf 0 0⟩ []), 0, 0, ⟨1, 1, 1, 1, some 9⟩⟩,
    some ⟨some (.box none [.leaf (.leaf 3 10) slabStyle, .image ⟨7, 30, 10, 0, slabStyle⟩] []), 0, 0, ⟨1, 1, 1, 1, none⟩⟩]], 2, [1 / 2, 1 / 2], fun _ _ _ => ⟨0, 5⟩, fun _ _ => none, ⟨1, 1, 1, 1, none⟩,
      .leaf 0 0⟩ []

set_option synthInstance.maxSize 2000 in
set_option synthInstance.maxHeartbeats 400000 in
example : (Spec.drawings (nestExec slabExec 200 3) slabMoves.before slabNest).toOption =
    some [⟨[.leaf (1, 3, 97, 49, 20), .leaf (3, 56, 99, 53, 10), .image 7 56 (205 / 3) 53 (53 / 3)],
        slabDrawn [(0, 99, 55, 99), (0, 75, 55, 75), (0, 71, 55, 71), (1, 100, 1, 70), (54, 100, 54, 70)], [⟨0, 202 / 3, 55, 98 / 3, 9, false⟩], 98 / 3, false⟩,
      ⟨[.leaf (2, 3, 97, 49, 40), .leaf (0, 56, 99, 53, 0)],
        slabDrawn [(0, 99, 55, 99), (0, 55, 55, 55), (1, 100, 1, 54), (54, 100, 54, 54)], [⟨0, 54, 55, 46, 9, false⟩], 46, true⟩] := by decide +kernel

/-- the theorem on it -/
example : Spec.drawings (nestExec slabExec 200 3) slabMoves.after slabNest = (Spec.drawings (nestExec slabExec 200 3) slabMoves.before slabNest).map (slabMoves.move (TagPart.mv slabMv)) :=
  C94_nested_partial slab_follows _ _ _ _

end Verif
