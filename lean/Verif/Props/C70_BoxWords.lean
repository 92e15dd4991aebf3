import Verif.Lemmas.ContentCong
import Verif.Props.C62_CellText
/-! C70: the words of the paragraphs of a content box, in any number of columns. -/
namespace Verif
open Spec

variable {B C : Type}

/-- a paragraph that was not run yet and whose lines have height, or an image -/
def Spec.FreshPar : CEl Leaf → Prop
  | .leaf (.par cfg rs) _ => rs = [] ∧ 0 < cfg.lineHeight
  | .image _ => True
  | _ => False

/-- C70 (partial): a content box of paragraphs and images, of any number of columns, over any rectangles. Its words and images come from the elements (`t` says which): of
each paragraph the first words, in order and none twice, and all of them when the box is finished, in document order but for images that flow. Partial because groups lose
text (C38) and boxes inside may be repeated (`C35_nested_repeated_false`); and the paragraphs
here are values: with several columns over several pages the code may lose words (`C76_columns_false`). -/
theorem C70_words_partial (M : Metrics) (cols : Nat) (gap : Option Rat) (els : List (CEl Leaf)) (hels : ∀ e ∈ els, FreshPar e) (fuel : Nat)
    (rects : List (Rat × Rat × Rat × Rat)) (ps : List (CPart LeafPart)) (s : CContent Leaf LeafPart B C)
    (hr : (CContent.new cols gap els).runs (leafExec M) fuel rects = .ok (ps, s)) :
    ∃ t : List (Nat × CAtom LAtom), t.map Prod.snd = ps.flatMap (boxAtoms leafPartAtoms) ∧ DocOrder els t ∧
      (∀ i, ofElement t i <+: atomsAt leafAtoms els i) ∧ (s.finished = true → ∀ i, ofElement t i = atomsAt leafAtoms els i) := by
  have hflat : ∀ e ∈ els, Spec.flat e = true := by
    intro e he
    have := hels e he
    cases e with
    | leaf c st => rfl
    | image i => rfl
    | group l t st => exact this.elim
    | child => exact this.elim
  have hfine : ElsFine LeafOk (rects.map fun r => colWidthOf cols gap r.2.2.1) els := by
    intro e he
    have := hels e he
    cases e with
    | leaf c st =>
      cases c with
      | par cfg rs => exact fun _ _ => this.2
      | image im b => exact this.elim
    | image i => trivial
    | group l t st => exact this.elim
    | child => exact this.elim
  have e1 := (contentBox_runs_cong (leaf_same (B := B) (C := C) M) (fuel := fuel) rects (ContentFine.new cols gap hfine) (fun r hr => List.mem_map_of_mem hr)).1
  rw [← e1] at hr
  obtain ⟨t, a1, a2, a3, a4, -⟩ := C35_content_partial (leafSafe M) leafPartAtoms (leafRest M) (leafSafe_honest M) cols gap els hflat fuel rects ps s hr
  have hat : ∀ i, atomsAt (leafRest M) els i = atomsAt leafAtoms els i := by
    intro i
    unfold atomsAt
    cases he : els[i]? with
    | none => rfl
    | some e =>
      have := hels e (List.mem_of_getElem? he)
      cases e with
      | leaf c st =>
        cases c with
        | par cfg rs => simp [elAtoms, leafRest_fresh M (c := .par cfg rs) this.1]
        | image im b => exact this.elim
      | image i => rfl
      | group l t st => rfl
      | child => rfl
  simp only [hat] at a3 a4
  exact ⟨t, a1, a2, a3, a4⟩

/-! ### two columns -/

section Example
private def ex70Look : TLook := ⟨⟨c!"Helvetica", c!"n", c!"F1", 10, ⟨none, false⟩, 0⟩, false, ⟨none, false⟩, none⟩
private def ex70Par (t : Str) : CEl Leaf := .leaf (.par ⟨[.text (splitWords t) ex70Look none], 0, c!"l", 1, none⟩ []) ⟨0, 5, 0, 0, none, false, .normal⟩
private def ex70Els : List (CEl Leaf) := [ex70Par c!"one two three four five six seven", .image ⟨1, 40, 10, 0, ⟨0, 5, 0, 0, none, false, .flow⟩⟩, ex70Par c!"eight nine ten"]

/-- the words shown, with the columns they are in -/
def boxWords (ps : List (CPart LeafPart)) : List (Rat × List Str) := ps.map fun
  | .leaf (.par x _ _ _ _ ls) => (x, (wordsOf (ls.flatMap lineToks)).map fun w => (w.map fun p => p.1).flatten)
  | .leaf (.image ..) => (0, [])
  | .image _ x _ _ _ => (x, [c!"I"])

example : (((CContent.new 2 none ex70Els : CContent Leaf LeafPart Unit Unit).runs (leafExec fun _ _ _ => 1 / 2) 100 [(0, 25, 100, 25), (0, 100, 100, 100)]).toOption.map fun r =>
    (boxWords r.1, r.2.finished)) = some ([(0, [c!"one", c!"two", c!"three"]), (107 / 2, [c!"four", c!"five", c!"six", c!"seven"]), (107 / 2, []), (0, [c!"I"]), (0, []),
      (107 / 2, [c!"eight", c!"nine", c!"ten"])], true) := by
  decide +kernel

/-- the theorem applies to it -/
example (cols fuel : Nat) (rects : List (Rat × Rat × Rat × Rat)) (ps : List (CPart LeafPart)) (s : CContent Leaf LeafPart Unit Unit)
    (hr : (CContent.new cols none ex70Els).runs (leafExec fun _ _ _ => 1 / 2) fuel rects = .ok (ps, s)) (hf : s.finished = true) :
    ∃ t : List (Nat × CAtom LAtom), t.map Prod.snd = ps.flatMap (boxAtoms leafPartAtoms) ∧ (ofElement t 0).length = 7 ∧ ofElement t 1 = [.image 1] := by
  obtain ⟨t, h1, -, -, h2⟩ := C70_words_partial (fun _ _ _ => 1 / 2) cols none ex70Els (by
    intro e he
    simp only [ex70Els, List.mem_cons, List.not_mem_nil, or_false] at he
    rcases he with rfl | rfl | rfl
    · exact ⟨rfl, by norm_num⟩
    · trivial
    · exact ⟨rfl, by norm_num⟩) fuel rects ps s hr
  exact ⟨t, h1, by rw [h2 hf 0]; decide +kernel, by rw [h2 hf 1]; rfl⟩
end Example
end Verif
