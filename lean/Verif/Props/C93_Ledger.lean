import Verif.Lemmas.BoxLedger
import Verif.Spec.LedgerNest
import Verif.Props.C92_Shapes
/-! C93: nothing that is drawn inside a table or box is lost, drawn twice or added. -/
namespace Verif
open Spec

variable {Λ Q σ P B C : Type}

/-- **C93, a box.** What a content box draws in a rectangle, after some runs: all lines and fills that some runs of its contents drew, in their order, and no others; and no other
parts. If it and all boxes in it have one column, all parts of these runs as well. -/
theorem C93_box (exec : σ → Rat → Rat → Rat → Rat → Except PyErr (CellOut σ P B C)) (cols : Nat) (gap : Option Rat) (els : List (CEl σ)) (fuel : Nat)
    (rects : List (Rat × Rat × Rat × Rat)) (ps : List (CPart P)) (s s' : CContent σ P B C) (hs : (CContent.new cols gap els).runs exec fuel rects = .ok (ps, s)) (x y w h : Rat)
    (hr : s.run exec fuel x y w h = .ok s') : ∃ calls, Ledger exec (cols = 1 ∧ ∀ e ∈ els, OneColumn e) calls s'.out :=
  (content_run_adds (content_runs_adds fuel rects _ _ _ (fun ho => ⟨ho.1, ho.2, by intro f hf; cases hf⟩) hs) hr).2

section
variable {fine : σ → Rat → Prop} {exec : σ → Rat → Rat → Rat → Rat → Except PyErr (CellOut σ P B C)}

theorem box_ledger {area : P → Area} (G : KeepsFine area fine exec) {els : List (CEl σ)} {Ws : List Rat} {gap : Option Rat} (hb : BoxIn fine gap els Ws) {fuel : Nat}
    {rects : List (Rat × Rat × Rat × Rat)} (hW : ∀ r ∈ rects, r.2.2.1 ∈ Ws) {ps : List (CPart P)} {s s' : CContent σ P B C}
    (hs : (CContent.new 1 gap els).runs exec fuel rects = .ok (ps, s)) {x y w h : Rat} (hw : w ∈ Ws) (hr : s.run exec fuel x y w h = .ok s') :
    ∃ calls, Ledger exec True calls s'.out ∧ ∀ k ∈ calls, fine k.thing k.w := by
  obtain ⟨-, m, -, -, m2⟩ := hb
  have he : ElsFine fine Ws els := by
    intro e he
    have ht := m2 e he
    cases e with
    | leaf c st => exact ht.2
    | image i => trivial
    | group l t st => exact ht.elim
    | child => exact ht.elim
  have hone : ∀ e ∈ els, OneColumn e := by
    intro e he
    have ht := m2 e he
    cases e with
    | leaf c st => exact .leaf
    | image i => exact .image
    | group l t st => exact .group
    | child => exact ht.elim
  have hcw : ∀ W ∈ Ws, colWidthOf 1 gap W ∈ Ws := fun W hW => by rw [colWidthOf_one]; exact hW
  obtain ⟨e1, e2⟩ := contentBox_runs_cong G.same rects (ContentFine.new 1 gap he) (fun r hr => hcw _ (hW r hr)) (fuel := fuel)
  have e3 := e2 ps s hs
  rw [← e1] at hs
  have h1 := content_runs_adds (one := True) fuel rects _ _ _ (fun _ => ⟨rfl, hone, by intro f hf; cases hf⟩) hs
  have hc : s.cols = 1 := (h1 trivial).cols
  rw [← (contentBox_run_cong G.same e3 (by rw [hc, colWidthOf_one]; exact hw)).1] at hr
  obtain ⟨calls, c1, c2, c3, c4, c5⟩ := (content_run_adds h1 hr).2
  exact ⟨calls, ⟨fun k hk => (fineExec_ok (c1 k hk)).2, c2, c3, c4, c5⟩, fun k hk => (fineExec_ok (c1 k hk)).1⟩

theorem table_ledger [DecidableEq B] {area : P → Area} (G : KeepsFine area fine exec) {D : TabData σ B C} {Ws : List Rat} (hD : TableIn fine D Ws)
    {rects : List (Rat × Rat × Rat × Rat)} (hW : ∀ r ∈ rects, r.2.2.1 ∈ Ws) {x0 y0 w0 h0 : Rat} {ps : List P} {s s' : TS σ P B C}
    (hs : (TS.new x0 y0 w0 h0).runs (D.conf exec) rects = .ok (ps, s)) {x y w h : Rat} (hw : w ∈ Ws) (hr : s.run (D.conf exec) x y w h = .ok s') :
    (s.firstRow = true ∧ s'.parts = [] ∧ s'.lines = [] ∧ s'.fills = []) ∨
    ∃ rows cells outs, Drawing (D.conf exec) (colX D.widths x w) y (if s.delayed.isEmpty then none else some s.delayed) s.index s'.index (y - s'.currentHeight) (y - h)
      rows cells outs s'.parts s'.lines s'.fills ∧ ∀ p ∈ outs, ∃ c cx cy cw ch, exec c cx cy cw ch = .ok p.2 ∧ fine c cw := by
  have hb : ∀ j, ∀ W ∈ Ws, ∀ i : Nat, fine (D.conf exec).blank (boxWidth (D.conf exec) W i j 0 (D.conf exec).style) := fun j W hW i => hD.blank W hW i j
  have hl : RowsFine (D.conf exec) fine Ws := fun i j c hc x hx W hW i' => hD.fits i j c x hc hx W hW i'
  obtain ⟨h1, h2⟩ := runs_cong (T := D.conf exec) G.same hb hl rects hW (LateFine.new x0 y0 w0 h0)
  have h3 := (run_cong (T := D.conf exec) G.same hb hl (x := x) (y := y) (h := h) hw (h2 ps s hs)).1
  obtain ⟨given, hg⟩ := hD.widths
  rw [← h1] at hs
  rw [← h3] at hr
  rcases C66_lines_and_fills_partial (D.conf (fineExec fine exec)) hD.rects hD.flag hD.border given hD.cols hg x0 y0 w0 h0 rects ps s s' hs x y w h hr with k | ⟨rows, cells, outs, hd⟩
  · exact .inl k
  · refine .inr ⟨rows, cells, outs, ⟨hd.top, hd.down, hd.ends, hd.reached, hd.cover, hd.inside, hd.once, hd.source, hd.all, hd.left, hd.above, hd.right, hd.lens, hd.below, ?_,
      hd.order, hd.full, hd.added, hd.drawn, hd.filled⟩, ?_⟩
    · intro p hp
      obtain ⟨⟨c, k1, k2⟩, k3⟩ := hd.ran p hp
      exact ⟨⟨c, k1, (fineExec_ok k2).2⟩, k3⟩
    · intro p hp
      obtain ⟨⟨c, k1, k2⟩, k3⟩ := hd.ran p hp
      exact ⟨c, _, _, _, _, (fineExec_ok k2).2, (fineExec_ok k2).1⟩

end

theorem nest_fine [DecidableEq B] (leaf : Λ → Rat → Rat → Rat → Rat → Except PyErr (CellOut Λ Q B C)) (fuel n : Nat) :
    KeepsFine (tagArea noArea) (nestIn n) (nestExec leaf fuel n : Nest Λ B C n → _) := nest_keeps (noArea_keeps leaf) fuel n

theorem nest_accounted [DecidableEq B] (leaf : Λ → Rat → Rat → Rat → Rat → Except PyErr (CellOut Λ Q B C)) (fuel : Nat) : ∀ (n : Nat) (c : Nest Λ B C n) (x y w h : Rat)
    (o : CellOut (Nest Λ B C n) (TagPart Q) B C), nestIn n c w → nestExec leaf fuel n c x y w h = .ok o → Accounted leaf fuel n c x y w h o
  | 0, c, _, _, _, _, _, _, _ => c.elim
  | n + 1, .leaf tag l, x, y, w, h, o, _, ho => by
    obtain ⟨lo, h1, rfl⟩ := tagExec_ok ho
    exact ⟨lo, h1, rfl, rfl, rfl⟩
  | n + 1, .table D rects, x, y, w, h, o, hc, ho => by
    obtain ⟨ps, s, h1, ⟨hf, rfl⟩ | ⟨s', h2, -, rfl⟩⟩ := tableExec_cases ho
    · exact ⟨ps, s, h1, .inl ⟨.inl hf, rfl, rfl, rfl⟩⟩
    · refine ⟨ps, s, h1, ?_⟩
      rcases table_ledger (nest_fine leaf fuel n) hc (fun r hr => List.mem_cons_of_mem _ (List.mem_map_of_mem hr)) h1 (by simp) h2 with k | ⟨rows, cells, outs, hd, k⟩
      · exact .inl ⟨.inr k.1, k.2⟩
      · refine .inr ⟨s'.index, rows, cells, outs, hd, fun p hp => ?_⟩
        obtain ⟨c, cx, cy, cw, ch, k1, k2⟩ := k p hp
        exact ⟨c, cx, cy, cw, ch, k1, nest_accounted leaf fuel n c cx cy cw ch p.2 k2 k1⟩
  | n + 1, .box gap els rects, x, y, w, h, o, hc, ho => by
    obtain ⟨ps, s, h1, ⟨hf, rfl⟩ | ⟨s', -, h2, -, rfl⟩⟩ := boxExec_cases ho
    · exact ⟨ps, s, h1, .inl ⟨hf, rfl, rfl, rfl⟩⟩
    · obtain ⟨calls, k1, k2⟩ := box_ledger (nest_fine leaf fuel n) hc (fun r hr => List.mem_cons_of_mem _ (List.mem_map_of_mem hr)) h1 (by simp) h2
      exact ⟨ps, s, h1, .inr ⟨s', calls, h2, k1, fun k hk => nest_accounted leaf fuel n _ _ _ _ _ _ (k2 k hk) (k1.ran k hk), rfl, rfl, rfl⟩⟩

/-- **C93.** A table or content box, with tables and content boxes inside each other to any depth, run in rectangles one after the other: a table draws its own lines and fills, as in
C66, and what the runs of its contents draw; a box what the runs of its contents draw; all of it, once, and nothing else; and so do the tables and boxes inside. -/
theorem C93_nested_partial [DecidableEq B] (leaf : Λ → Rat → Rat → Rat → Rat → Except PyErr (CellOut Λ Q B C)) (fuel n : Nat) : ∀ (rects : List (Rat × Rat × Rat × Rat))
    (c : Nest Λ B C n), (∀ r ∈ rects, nestIn n c r.2.2.1) → StepsAccounted leaf fuel n c rects
  | [], _, _ => trivial
  | (x, y, w, h) :: l, c, hc => fun o ho =>
    ⟨nest_accounted leaf fuel n c x y w h o (hc (x, y, w, h) (by simp)) ho,
      C93_nested_partial leaf fuel n l _ fun r hr => (nest_fine leaf fuel n).next c x y w h o r.2.2.1 (hc (x, y, w, h) (by simp)) ho (hc r (by simp [hr]))⟩

end Verif
