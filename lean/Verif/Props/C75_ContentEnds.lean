import Verif.Lemmas.ContentEnds
import Verif.Props.C63_TableEnds
import Verif.Props.C70_BoxWords
/-! C75: adding a content box to a document comes to an end. -/
namespace Verif
open Spec

variable {B C : Type}

/-- a paragraph or an image that has not been shown yet and fits a page of width `W` and height `H`: the lines of a paragraph are not higher than the page, and an
image is lower, or may be made as small as that -/
def Spec.FitsPage (W H : Rat) : CEl Leaf → Prop
  | .leaf (.par cfg rs) _ => rs = [] ∧ TallEnough cfg H
  | .image i => i.tries = 0 ∧ ImageLow i W H
  | _ => False

/-- the number of words, items and elements of a box, elements twice -/
def Spec.boxItems (els : List (CEl Leaf)) : Nat :=
  (els.map fun
    | .leaf c _ => leafItems c + 2
    | _ => 2).sum

/-- what is known during a run that started at rank `s0`: nothing goes back -/
structure MInv (cfg : TCfg) (s0 : Nat) (r : RunSt) (i k : Nat) : Prop where
  ge : s0 ≤ rank cfg.content i k
  added : r.cur.started = true → s0 ≤ rank cfg.content r.pos.partAdded r.pos.wordAdded
  line : s0 ≤ rank cfg.content r.pos.partLine r.pos.wordLine

theorem mInv_hyp (M : Metrics) (cfg : TCfg) (width height : Rat) (s0 : Nat) :
    RunHyp M cfg width height (MInv cfg s0) (fun r => s0 ≤ rank cfg.content r.pos.lastPart r.pos.lastWord) where
  added := by
    intro r i k ws look ids w l' h wf hl hc hw hcase
    have hge : s0 ≤ rank cfg.content i (k + 1) := by
      have := h.ge
      rw [rank_add] at this ⊢; omega
    exact ⟨hge, fun _ => hge, h.line⟩
  keep := by
    intro r i k ws look ids w l' res h wf hl hc hw hcase hres
    have hge : s0 ≤ rank cfg.content i (k + 1) := by
      have := h.ge
      rw [rank_add] at this ⊢; omega
    cases hcase with
    | first => rcases hres with h | h <;> cases h
    | accum => rcases hres with h | h <;> cases h
    | finished => rcases hres with h | h <;> cases h
    | ignored hsp hcc => exact ⟨hge, h.added, h.line⟩
    | preadded _ hsp hs => exact ⟨hge, fun _ => h.added hs, h.line⟩
  finOk := by
    intro r i k ws look ids w l' nl b h wf hl hc hw hcase _ hh
    have hge : s0 ≤ rank cfg.content i (k + 1) := by
      have := h.ge
      rw [rank_add] at this ⊢; omega
    cases hcase with
    | finished _ _ hsp hs hp hn hm' hok hlast ns nf np na nt nn wf' hl' hlk =>
      refine ⟨hge, ?_, h.added hs⟩
      intro hst; simp only [ns] at hst; cases hst
  finBad := by
    intro r i k ws look ids w l' nl h wf hl hc hw hcase hh
    exact h.line
  part := by
    intro r i k ws look ids h wf hc
    obtain ⟨e1, e2, e3, e4, ⟨b, e5⟩, ⟨w, e6⟩⟩ := partStart_fields cfg look ids r
    refine ⟨h.ge, ?_, ?_⟩
    · rw [e5, e6]; exact h.added
    · rw [e5]; exact h.line
  partEnd := by
    intro r i ws look ids h wf hc
    refine ⟨?_, h.added, h.line⟩
    rw [rank_succ hc]
    have := h.ge
    rw [rank_add] at this
    simp only [itemSize]; omega
  skip := by
    intro r i h wf hc
    refine ⟨?_, h.added, h.line⟩
    rw [rank_succ hc]
    have := h.ge
    omega
  brOk := by
    intro r i h wf hc hh
    have hge : s0 ≤ rank cfg.content (i + 1) 0 := by
      rw [rank_succ hc]
      have := h.ge
      omega
    exact ⟨hge, fun _ => hge, hge⟩
  brBad := by
    intro r i h wf hc hh
    exact h.line

/-- a run never goes back -/
theorem textRun_mono (M : Metrics) (cfg : TCfg) (width height : Rat) (pos : TPos) {E : List (WTok Piece)} (hp : WPost cfg E pos) :
    (textRun M cfg width height pos).pos.finished = true ∨
    rank cfg.content pos.lastPart pos.lastWord ≤
      rank cfg.content (textRun M cfg width height pos).pos.lastPart (textRun M cfg width height pos).pos.lastWord := by
  refine textRun_ind (mInv_hyp M cfg width height (rank cfg.content pos.lastPart pos.lastWord)) pos hp.lastV.2 hp.lastV.1 ?_
    (R := fun r => r.pos.finished = true ∨ rank cfg.content pos.lastPart pos.lastWord ≤ rank cfg.content r.pos.lastPart r.pos.lastWord)
    (fun r hr => Or.inr hr) ?_ ?_
  · refine ⟨le_refl _, ?_, ?_⟩
    · intro hst; simp [runInit, TLine.new] at hst
    · show _ ≤ rank cfg.content pos.partLine pos.wordLine
      rw [hp.sync.1, hp.sync.2]
  · intro r hr _ hh; left; rfl
  · intro r hr wf hh
    exact .inr hr.line
/-- a paragraph -/
def Leaf.isPar : Leaf → Prop
  | .par _ _ => True
  | .image _ _ => False

theorem par_ends (M : Metrics) : BoxEnds (leafExec M : Leaf → Rat → Rat → Rat → Rat → Except PyErr (CellOut Leaf LeafPart B C)) Leaf.isPar LeafLow (leafLeft M) where
  runs := by
    intro c x y w h hc
    cases c with
    | image im b => exact hc.elim
    | par cfg rs =>
      refine ⟨_, rfl, ?_⟩
      unfold parExec
      simp only
      split
      · exact ⟨trivial, fun h => by cases h⟩
      · rename_i hf
        refine ⟨trivial, fun hfin => ?_⟩
        have hf : (textRuns M cfg rs TPos.init).1.finished = false := by simpa using hf
        obtain ⟨E, hp⟩ := TReach.post (M := M) (cfg := cfg) ⟨rs, rfl, hf⟩
        have e := textRuns_snoc M cfg w h rs TPos.init
        rw [if_neg (by simp [hf])] at e
        have hf2 : (textRuns M cfg (rs ++ [(w, h)]) TPos.init).1.finished = false := by rw [e]; exact hfin
        rcases textRun_mono M cfg w h _ hp with h2 | h2
        · have hfin' : (textRun M cfg w h (textRuns M cfg rs TPos.init).1).pos.finished = false := hfin
          rw [h2] at hfin'
          cases hfin'
        · simp only [leafLeft]
          rw [e]
          simp only
          omega
  shrink := fun c x y w h o _ hfit ho hfin => (leaf_ends M).shrink c x y w h o hfit ho hfin
  keep := fun c x y w h o w' h' _ hfit ho => (leaf_ends M).keep c x y w h o w' h' hfit ho

theorem fits_low {W H : Rat} {e : CEl Leaf} (h : FitsPage W H e) : ElLow Leaf.isPar LeafLow W H e ∧ elTries e = 0 := by
  cases e with
  | leaf c st =>
    cases c with
    | par cfg rs => exact ⟨⟨trivial, h.2⟩, rfl⟩
    | image im b => exact h.elim
  | image i => exact ⟨h.2, h.1⟩
  | group l t st => exact h.elim
  | child => exact h.elim

theorem fits_items (M : Metrics) {W H : Rat} {els : List (CEl Leaf)} (h : ∀ e ∈ els, FitsPage W H e) :
    (els.map fun e => elLeft (leafLeft M) e + 1).sum = boxItems els := by
  unfold boxItems
  congr 1
  refine List.map_congr_left fun e he => ?_
  have := h e he
  cases e with
  | leaf c st =>
    cases c with
    | par cfg rs => simp only [elLeft]; rw [leafItems_eq M (c := .par cfg rs) this.1]
    | image im b => exact this.elim
  | image i => rfl
  | group l t st => exact this.elim
  | child => exact this.elim

/-- C75 (partial): a content box of one column, of paragraphs and images that fit a page, comes to an end without errors, whatever is left of the first page; it takes at most as
many further pages as it has words, items and elements (counted twice). Partial because of more columns, boxes and groups inside, and because it fails for what does not fit a
page (`C75_high_line_false`, `C75_high_image_false`) and for many images that flow (`C75_flowing_images_false`). -/
theorem C75_ends_partial (M : Metrics) (gap : Option Rat) (els : List (CEl Leaf)) (W H : Rat) (hH : 0 ≤ H) (hels : ∀ e ∈ els, FitsPage W H e)
    (hflow : els.countP flows < 48) (fuel : Nat) (hfuel : els.length + 2 < fuel) (first : Rat × Rat × Rat × Rat) (pages : List (Rat × Rat × Rat × Rat))
    (hp : ∀ r ∈ pages, r.2.2 = (W, H)) (hn : boxItems els ≤ pages.length) :
    ∃ ps s, (CContent.new 1 gap els : CContent Leaf LeafPart B C).runs (leafExec M) fuel (first :: pages) = .ok (ps, s) ∧ s.finished = true :=
  runs_end (par_ends M) hflow hfuel hH (fun e he => fits_low (hels e he)) first hp (by rw [fits_items M hels]; exact hn)

/-- C75 (partial): and then the words of all paragraphs and all images have been shown, once, in document order but for images that flow -/
theorem C75_all_shown_partial (M : Metrics) (gap : Option Rat) (els : List (CEl Leaf)) (W H : Rat) (hH : 0 ≤ H) (hels : ∀ e ∈ els, FitsPage W H e ∧ FreshPar e)
    (hflow : els.countP flows < 48) (fuel : Nat) (hfuel : els.length + 2 < fuel) (first : Rat × Rat × Rat × Rat) (pages : List (Rat × Rat × Rat × Rat))
    (hp : ∀ r ∈ pages, r.2.2 = (W, H)) (hn : boxItems els ≤ pages.length) :
    ∃ ps s, (CContent.new 1 gap els : CContent Leaf LeafPart B C).runs (leafExec M) fuel (first :: pages) = .ok (ps, s) ∧
    ∃ t : List (Nat × CAtom LAtom), t.map Prod.snd = ps.flatMap (boxAtoms leafPartAtoms) ∧ DocOrder els t ∧ ∀ i, ofElement t i = atomsAt leafAtoms els i := by
  obtain ⟨ps, s, hr, hf⟩ := C75_ends_partial (B := B) (C := C) M gap els W H hH (fun e he => (hels e he).1) hflow fuel hfuel first pages hp hn
  obtain ⟨t, h1, h2, -, h3⟩ := C70_words_partial M 1 gap els (fun e he => (hels e he).2) fuel _ ps s hr
  exact ⟨ps, s, hr, t, h1, h2, h3 hf⟩

/-! ### what does not fit -/

/-- the error of a run, if there was one -/
def runError {α : Type} : CRun α → Option (Option PyErr)
  | .error e => some e
  | .ok _ => none

/-- an image in a style without margins -/
def plainImage (place : ImgPlace) (w h : Rat) : CEl Leaf := .image ⟨1, w, h, 0, ⟨0, 0, 0, 0, none, false, place⟩⟩

/-- C75 fails for an image that is higher than the pages: after fifty pages without it there is an error -/
theorem C75_high_image_false :
    (((CContent.new 1 none [plainImage .normal 10 10] : CContent Leaf LeafPart Unit Unit).runs (leafExec fun _ _ _ => 1 / 2) 10 (List.replicate 50 (0, 50, 100, 50))).toOption.map
      fun r => (r.1.length, r.2.finished)) = some (0, false) ∧
    runError ((CContent.new 1 none [plainImage .normal 10 10] : CContent Leaf LeafPart Unit Unit).runs (leafExec fun _ _ _ => 1 / 2) 10 (List.replicate 51 (0, 50, 100, 50))) =
      some (some .exception) := by
  constructor <;> decide +kernel

/-- C75 fails for many images that flow, though each of them fits a page: here 52 of them, one on a page, the last of which has been tried fifty times when its turn comes -/
theorem C75_flowing_images_false :
    (∀ e ∈ List.replicate 52 (plainImage .flow 100 49), FitsPage 100 50 e) ∧
    runError ((CContent.new 1 none (List.replicate 52 (plainImage .flow 100 49)) : CContent Leaf LeafPart Unit Unit).runs (leafExec fun _ _ _ => 1 / 2) 100
      (List.replicate 100 (0, 50, 100, 50))) = some (some .exception) := by
  constructor
  · intro e he
    rw [List.eq_of_mem_replicate he]
    exact ⟨rfl, by decide, by decide, .inl (by norm_num)⟩
  · decide +kernel

/-- a paragraph that is never finished on low pages -/
theorem stuck_exec {cfg : TCfg} (M : Metrics) (hcfg : ∀ pages : List (Rat × Rat), (∀ p ∈ pages, p.2 < 20) → (textRuns M cfg pages TPos.init).1.finished = false)
    {rs : List (Rat × Rat)} (hrs : ∀ p ∈ rs, p.2 < 20) (x y w h : Rat) (hh : h < 20) :
    ∃ o : CellOut Leaf LeafPart B C, leafExec M (.par cfg rs) x y w h = .ok o ∧ o.finished = false ∧ o.next = .par cfg (rs ++ [(w, h)]) := by
  refine ⟨_, rfl, ?_⟩
  have e := textRuns_snoc M cfg w h rs TPos.init
  rw [if_neg (by simp [hcfg rs hrs])] at e
  have h2 := hcfg (rs ++ [(w, h)]) (by
    intro p hp
    rcases List.mem_append.1 hp with hp | hp
    · exact hrs p hp
    · rw [List.mem_singleton] at hp; rw [hp]; exact hh)
  rw [e] at h2
  unfold parExec
  simp only
  rw [if_neg (by simp [hcfg rs hrs])]
  exact ⟨h2, rfl⟩

/-- the box of such a paragraph between two pages -/
structure StuckBox (cfg : TCfg) (st : CStyle) (f : CBox Leaf) : Prop where
  cols : f.cols = 1
  where_ : (f.elements = [.leaf (.par cfg []) st] ∧ f.sectionIndex = 0 ∧ f.sectionDelayed = []) ∨
    (f.elements.length = 1 ∧ f.sectionIndex = 1 ∧ ∃ rs, (∀ p ∈ rs, p.2 < 20) ∧ f.sectionDelayed = [.leaf (.par cfg rs) st])

theorem stuckBox_run {cfg : TCfg} {st : CStyle} (M : Metrics) (hcfg : ∀ pages : List (Rat × Rat), (∀ p ∈ pages, p.2 < 20) → (textRuns M cfg pages TPos.init).1.finished = false)
    {f : CBox Leaf} (hf : StuckBox cfg st f) {x y w h : Rat} (hh : h < 20) (fuel : Nat) :
    ∃ f' w', contentRun (leafExec M) (fuel + 3) [f.setup x w y (y - h) 0] (⟨[], [], []⟩ : COut LeafPart B C) = .ok (.interrupt, [f'], w') ∧ StuckBox cfg st f' := by
  have hroom : (f.setup x w y (y - h) 0).room < 20 := by
    simp only [CBox.room, CBox.setup]
    rw [show y - (y - h) = h by ring]
    exact max_lt (by norm_num) hh
  have hds : (f.setup x w y (y - h) 0).descend st true = f.setup x w y (y - h) 0 := rfl
  generalize hg : f.setup x w y (y - h) 0 = g at *
  have hcol : g.cols = 1 := by rw [← hg]; exact hf.cols
  have hcolumn : g.column = 0 := by rw [← hg]; rfl
  have hcalm : g.resetting = false := by rw [← hg]; rfl
  have hproc : ∀ rs, (∀ p ∈ rs, p.2 < 20) → ∃ (a : CAns Leaf) (e' : CEl Leaf) (w' : COut LeafPart B C), ∃ f', g.process (leafExec M) ⟨[], [], []⟩ (.leaf (.par cfg rs) st) = .ok (a, e', f', w') ∧
      a.next = true ∧ (∃ rs', (∀ p ∈ rs', p.2 < 20) ∧ a.delayed = some (.leaf (.par cfg rs') st)) := by
    intro rs hrs
    obtain ⟨o, ho, h1, h2⟩ := stuck_exec (B := B) (C := C) M hcfg hrs (g.elX st) g.y (g.elWidth st) g.room hroom
    unfold CBox.process CBox.leaf
    simp only
    rw [hds, ho]
    simp only [h1, h2]
    refine ⟨_, _, _, _, rfl, rfl, _, ?_, rfl⟩
    intro p hp
    rcases List.mem_append.1 hp with hp | hp
    · exact hrs p hp
    · rw [List.mem_singleton] at hp; rw [hp]; exact hroom
  rcases hf.where_ with ⟨h1, h2, h3⟩ | ⟨h1, h2, rs, hrs, h3⟩
  · have hd : g.delayed = [] := by rw [← hg]; exact h3
    have hi : g.index = 0 := by rw [← hg]; exact h2
    have he : g.elements = [.leaf (.par cfg []) st] := by rw [← hg]; exact h1
    obtain ⟨a, e', w', f', p1, p2, rs', p3, p4⟩ := hproc [] (by simp)
    have hfr := (process_simple (e := .leaf (Leaf.par cfg []) st) rfl p1).frame
    rw [contentRun_succ, addDelayed_none _ hd]
    simp only
    rw [show answerAct .cont [g] (⟨[], [], []⟩ : COut LeafPart B C) = (.cont, [g], ⟨[], [], []⟩) from rfl]
    simp only [afterDelayed]
    rw [contentElements_flat (leafExec M) (fuel + 1) g [] _ (e := .leaf (.par cfg []) st) (by rw [he, hi]; rfl) rfl, p1]
    simp only
    rw [if_pos p2]
    simp only
    rw [next_interrupts (f := f'.after a e') (hfr.cols.trans hcol) (hfr.column.trans hcolumn) (hfr.resetting.trans hcalm)]
    refine ⟨_, _, rfl, hfr.cols.trans hcol, .inr ⟨?_, ?_, rs', p3, ?_⟩⟩
    · simp [CBox.after, hfr.elements, he]
    · simp [CBox.after, hfr.index, hi]
    · simp [CBox.after, hfr.delayed, hd, p4]
  · have hd : g.delayed = [.leaf (.par cfg rs) st] := by rw [← hg]; exact h3
    have hi : g.index = 1 := by rw [← hg]; exact h2
    have he : g.elements.length = 1 := by rw [← hg]; exact h1
    obtain ⟨a, e', w', f', p1, p2, rs', p3, p4⟩ := hproc rs hrs
    have hfr := (process_simple (e := .leaf (Leaf.par cfg rs) st) rfl p1).frame
    rw [contentRun_succ, CBox.addDelayed]
    have h0 : g.delayed[0]? = some (.leaf (.par cfg rs) st) := by rw [hd]; rfl
    simp only [h0, p1, p2, if_true]
    rw [next_interrupts (f := { f' with delayed := replaceAt f'.delayed 0 a.delayed }) (hfr.cols.trans hcol) (hfr.column.trans hcolumn) (hfr.resetting.trans hcalm)]
    refine ⟨_, _, rfl, hfr.cols.trans hcol, .inr ⟨?_, ?_, rs', p3, ?_⟩⟩
    · simp [hfr.elements, he]
    · simp [hfr.index, hi]
    · simp [hfr.delayed, hd, p4, replaceAt]

/-- C75 fails for a line that is higher than the pages: `PDF.content` adds pages for ever -/
theorem C75_high_line_false : ∃ cfg : TCfg, ∀ (M : Metrics) (pages : List (Rat × Rat × Rat × Rat)), (∀ r ∈ pages, r.2.2.2 < 20) →
    ∃ ps s, (CContent.new 1 none [.leaf (.par cfg []) ⟨0, 0, 0, 0, none, false, .normal⟩] : CContent Leaf LeafPart Unit Unit).runs (leafExec M) 3 pages = .ok (ps, s) ∧
      s.finished = false := by
  obtain ⟨cfg, hcfg⟩ := C23_high_line_false
  refine ⟨cfg, fun M pages hp => ?_⟩
  have key : ∀ (pages : List (Rat × Rat × Rat × Rat)) (s : CContent Leaf LeafPart Unit Unit), (∀ r ∈ pages, r.2.2.2 < 20) → s.cols = 1 → s.finished = false →
      StuckBox cfg ⟨0, 0, 0, 0, none, false, .normal⟩ (s.box.getD (CBox.blank s.cols s.gap s.elements true)) →
      ∃ ps s', s.runs (leafExec M) 3 pages = .ok (ps, s') ∧ s'.finished = false := by
    intro pages
    induction pages with
    | nil => intro s _ _ h _; exact ⟨[], s, rfl, h⟩
    | cons r l ih =>
      intro s hp hc hfin hb
      obtain ⟨x, y, w, h⟩ := r
      obtain ⟨f', w', h1, h2⟩ := stuckBox_run (B := Unit) (C := Unit) M (fun pages hp => (hcfg M pages hp).1) hb (x := x) (y := y) (w := w) (h := h) (hp (x, y, w, h) (by simp)) 0
      unfold CContent.runs
      rw [if_neg (by simp [hfin])]
      unfold CContent.run
      rw [if_neg (by omega)]
      simp only [h1]
      obtain ⟨ps, s', k1, k2⟩ := ih { s with
          box := some f'
          out := w'
          finished := s.finished || decide (CAct.interrupt = .cont)
          currentHeight := f'.minY - (if f'.cols > 1 then f'.maxY else f'.y) } (fun r hr => hp r (by simp [hr])) hc (by simp [hfin]) h2
      rw [k1]
      exact ⟨_, _, rfl, k2⟩
  exact key pages _ hp rfl rfl ⟨rfl, .inl ⟨rfl, rfl, rfl⟩⟩

/-! ### a box on three pages -/

section Example
private def ex75Look : TLook := ⟨⟨c!"Helvetica", c!"n", c!"F1", 10, ⟨none, false⟩, 0⟩, false, ⟨none, false⟩, none⟩
private def ex75Par (t : Str) : CEl Leaf := .leaf (.par ⟨[.text (splitWords t) ex75Look none], 0, c!"l", 1, none⟩ []) ⟨0, 5, 0, 0, none, false, .normal⟩
private def ex75Els : List (CEl Leaf) := [ex75Par c!"one two three four five six seven", .image ⟨1, 40, 10, 0, ⟨0, 5, 0, 0, none, false, .flow⟩⟩, ex75Par c!"eight nine ten"]

example : (((CContent.new 1 none ex75Els : CContent Leaf LeafPart Unit Unit).runs (leafExec fun _ _ _ => 1 / 2) 6
    ((0, 14, 100, 14) :: List.replicate 26 (0, 30, 100, 30))).toOption.map fun r => (boxWords r.1, r.2.finished)) =
    some ([(0, [c!"one", c!"two", c!"three", c!"four"]), (0, [c!"five", c!"six", c!"seven"]), (0, [c!"eight", c!"nine", c!"ten"]), (0, [c!"I"])], true) := by
  decide +kernel

theorem ex75_fits : ∀ e ∈ ex75Els, FitsPage 100 30 e ∧ FreshPar e := by
  intro e he
  have hlook : ∀ t : Str, TallEnough ⟨[.text (splitWords t) ex75Look none], 0, c!"l", 1, none⟩ 30 := by
    intro t
    refine ⟨10, 0, by norm_num, by norm_num, ?_, by norm_num⟩
    intro x hx
    have : x = ex75Look := by simpa [contentLooks] using hx
    subst this
    norm_num [ex75Look]
  simp only [ex75Els, List.mem_cons, List.not_mem_nil, or_false] at he
  rcases he with rfl | rfl | rfl
  · exact ⟨⟨rfl, hlook _⟩, rfl, by norm_num⟩
  · exact ⟨⟨rfl, by norm_num, by decide, .inl (by norm_num)⟩, trivial⟩
  · exact ⟨⟨rfl, hlook _⟩, rfl, by norm_num⟩

/-- the theorems apply to it, whatever the widths of the characters are and how much is left of the first page -/
example (M : Metrics) (first : Rat × Rat × Rat × Rat) :
    ∃ ps s, (CContent.new 1 none ex75Els : CContent Leaf LeafPart Unit Unit).runs (leafExec M) 6 (first :: List.replicate 26 (0, 30, 100, 30)) = .ok (ps, s) ∧ s.finished = true :=
  C75_ends_partial M none ex75Els 100 30 (by norm_num) (fun e he => (ex75_fits e he).1) (by decide) 6 (by decide) first _
    (fun r hr => by rw [List.eq_of_mem_replicate hr]) (by decide +kernel)

example (M : Metrics) (first : Rat × Rat × Rat × Rat) :
    ∃ ps s, (CContent.new 1 none ex75Els : CContent Leaf LeafPart Unit Unit).runs (leafExec M) 6 (first :: List.replicate 26 (0, 30, 100, 30)) = .ok (ps, s) ∧
    ∃ t : List (Nat × CAtom LAtom), t.map Prod.snd = ps.flatMap (boxAtoms leafPartAtoms) ∧ (ofElement t 0).length = 7 ∧ ofElement t 1 = [.image 1] ∧ (ofElement t 2).length = 3 := by
  obtain ⟨ps, s, h1, t, h2, -, h3⟩ := C75_all_shown_partial (B := Unit) (C := Unit) M none ex75Els 100 30 (by norm_num) ex75_fits (by decide) 6 (by decide) first
    (List.replicate 26 (0, 30, 100, 30)) (fun r hr => by rw [List.eq_of_mem_replicate hr]) (by decide +kernel)
  exact ⟨ps, s, h1, t, h2, by rw [h3 0]; decide +kernel, by rw [h3 1]; rfl, by rw [h3 2]; decide +kernel⟩
end Example

end Verif
