import Verif.Lemmas.DocLeaf
import Verif.Lemmas.NestOrder
import Verif.Spec.DocHeld
/-! Tables and content boxes of a document inside each other. -/
namespace Verif
open Spec

/-! ### Parts come from the paragraphs and images -/

section
variable {Λ Q σ B C : Type} {pa : Q → List LAtom} {K : LSpec Λ} {leaf : Λ → Rat → Rat → Rat → Rat → Except PyErr (CellOut Λ Q B C)}
  {S : NSpec σ} {exec : σ → Rat → Rat → Rat → Rat → Except PyErr (CellOut σ (TagPart Q) B C)} {P : Q → Prop}

/-- the part of a paragraph or image -/
def tagOk (P : Q → Prop) : TagPart Q → Prop
  | .leaf p => P p.2
  | .image _ _ _ _ _ => True

/-- the parts of contents -/
def NParts (P : Q → Prop) (S : NSpec σ) (exec : σ → Rat → Rat → Rat → Rat → Except PyErr (CellOut σ (TagPart Q) B C)) : Prop :=
  ∀ c x y w h o, S.fit c w → exec c x y w h = .ok o → ∀ p ∈ o.parts, tagOk P p

theorem guard_parts (H : NParts P S exec) {c : σ} {x y w h : Rat} {o : CellOut σ (TagPart Q) B C} (ho : guard S exec c x y w h = .ok o) : ∀ p ∈ o.parts, tagOk P p := by
  obtain ⟨h1, h2⟩ := guard_ok ho
  exact H _ _ _ _ _ _ h1 h2

theorem table_parts [DecidableEq B] (G : NGood pa S exec) (H : NParts P S exec) {D : TabData σ B C} {Ws : List Rat} (hD : TableFit S D Ws)
    {rects : List (Rat × Rat × Rat × Rat)} (hW : ∀ r ∈ rects, r.2.2.1 ∈ Ws) {ps : List (TagPart Q)} {s s' : TS σ (TagPart Q) B C}
    (hr : (TS.new 0 0 0 0).runs (D.conf exec) rects = .ok (ps, s)) {x y w h : Rat} (hw : w ∈ Ws) (hs : s.run (D.conf exec) x y w h = .ok s') : ∀ p ∈ s'.parts, tagOk P p := by
  rw [← (table_same G hD hW).2 ps s hr x y w h hw] at hs
  exact run_parts (T := D.conf (guard S exec)) (fun _ _ _ _ _ _ h => guard_parts H h) hs

open Classical in
theorem box_parts (G : NGood pa S exec) (H : NParts P S exec) {els : List (CEl σ)} {Ws : List Rat} (hb : BoxFit S els Ws) {fuel : Nat} {gap : Option Rat}
    {rects : List (Rat × Rat × Rat × Rat)} (hW : ∀ r ∈ rects, r.2.2.1 ∈ Ws) {ps : List (CPart (TagPart Q))} {s : CContent σ (TagPart Q) B C}
    (hr : (CContent.new 1 gap els).runs exec fuel rects = .ok (ps, s)) : ∀ p ∈ ps, tagOk P p.join := by
  rw [← box_same G hb fuel gap hW] at hr
  have hh : Honest (guard S exec) (fun p => if tagOk P p then [] else [()]) (fun _ => []) := by
    have key : ∀ {c x y w h o}, guard S exec c x y w h = .ok o → o.parts.flatMap (fun p => if tagOk P p then [] else [()]) = [] := by
      intro c x y w h o ho
      rw [List.flatMap_eq_nil_iff]
      intro p hp
      rw [if_pos (guard_parts H ho p hp)]
    exact ⟨fun c x y w h o ho => by rw [key ho]; rfl, fun _ _ _ _ _ _ _ _ => rfl, fun c x y w h o ho _ => key ho⟩
  obtain ⟨t, a1, -, a2, -⟩ := C35_content_partial (guard S exec) _ _ hh 1 gap els (fun e he => elTidy_flat (hb.tidy e he)) fuel rects ps s hr
  intro p hp
  cases p with
  | image n x y w h => trivial
  | leaf q =>
    by_contra hq
    have h1 : CAtom.text () ∈ t.map Prod.snd := by
      rw [a1]
      refine List.mem_flatMap.2 ⟨_, hp, ?_⟩
      show CAtom.text () ∈ (if tagOk P q then [] else [()]).map CAtom.text
      rw [if_neg (show ¬ tagOk P q from hq)]
      simp
    obtain ⟨⟨i, a⟩, h2, h3⟩ := List.mem_map.1 h1
    simp only at h3
    subst h3
    have h4 : CAtom.text () ∈ ofElement t i := List.mem_map.2 ⟨_, List.mem_filter.2 ⟨h2, by simp⟩, rfl⟩
    have h5 := (a2 i).subset h4
    unfold atomsAt at h5
    cases he : els[i]? with
    | none => rw [he] at h5; simp at h5
    | some e =>
      rw [he] at h5
      cases e <;> simp [elAtoms] at h5

theorem node_parts [DecidableEq B] (hl : ∀ l x y w h o, K.fit l w → leaf l x y w h = .ok o → ∀ p ∈ o.parts, P p) (fuel : Nat) (G : NGood pa S exec)
    (H : NParts P S exec) : NParts P (S.node K B C) (nodeExec leaf fuel exec) := by
  intro c x y w h o hfit ho p hp
  cases c with
  | leaf tag l =>
    obtain ⟨o', h1, rfl⟩ := tagExec_ok ho
    obtain ⟨q, hq, rfl⟩ := List.mem_map.1 hp
    exact hl _ _ _ _ _ _ hfit h1 q hq
  | table D rects =>
    have hfit : TableFit S D (w :: rects.map (·.2.2.1)) := hfit
    obtain ⟨ps, s, h1, ⟨-, rfl⟩ | ⟨s', h2, h3, rfl⟩⟩ := tableExec_cases ho
    · cases hp
    · exact table_parts G H hfit (fun r hr => List.mem_cons_of_mem _ (List.mem_map_of_mem hr)) h1 List.mem_cons_self h2 p hp
  | box gap els rects =>
    have hfit : BoxFit S els (w :: rects.map (·.2.2.1)) := hfit
    obtain ⟨ps, s, h1, ⟨-, rfl⟩ | ⟨s', -, h2, h3, rfl⟩⟩ := boxExec_cases ho
    · cases hp
    · obtain ⟨q, hq, rfl⟩ := List.mem_map.1 hp
      exact box_parts G H hfit mem_widths h3 q (List.mem_append.2 (Or.inr hq))

theorem nest_parts [DecidableEq B] (GL : LGood pa K leaf) (hl : ∀ l x y w h o, K.fit l w → leaf l x y w h = .ok o → ∀ p ∈ o.parts, P p) (fuel n : Nat) :
    NParts P (nestSpec K B C n) (nestExec leaf fuel n) := by
  induction n with
  | zero => exact fun c => c.elim
  | succ n ih => exact node_parts hl fuel (nest_good GL fuel n) ih

end

/-! ### The paragraphs and images of a document -/

/-- paragraphs and images that can be shown and read in the file -/
def Spec.docSpec (T : TextEnv) (refOf : Str → Str → Str) : LSpec DocLeaf where
  atoms l := leafAtoms (leafOf l)
  fit := DocFine T refOf fun _ => True
  fresh l := FreshLeaf (leafOf l)
  void
    | .par a rects _ => rects = [] ∧ 0 < a.cfg.lineHeight ∧ a.cfg.content = [] ∧ Readable T.fmt refOf a.cfg
    | .image _ _ => False

section
variable {T : TextEnv} {refOf : Str → Str → Str} {L : PImg → Prop}

theorem doc_good : LGood (fun p => leafPartAtoms p.leaf) (docSpec T refOf) (docExec T) where
  rest := by
    have e : lguard (docSpec T refOf) (docExec T) = docSafe T refOf fun _ => True := rfl
    exact ⟨fun c => leafRest T.metrics (leafOf c), e ▸ docSafe_honest, fun l hl => leafRest_fresh T.metrics hl⟩
  next := fun l x y w h o w' ho hf => ⟨leafExec_next (docExec_leaf ho) hf.1, docExec_next ho hf.2⟩
  void := by
    intro l hl
    cases l with
    | par a rects correct =>
      obtain ⟨h1, h2, h3, h4⟩ := hl
      exact ⟨fun w => ⟨h2, h4⟩, h1, by simp [docSpec, leafOf, leafAtoms, h3, wordsOf, wordState, wordStep]⟩
    | image im b => exact hl.elim

theorem doc_parts : ∀ l x y w h o, (docSpec T refOf).fit l w → docExec T l x y w h = .ok o → ∀ p ∈ o.parts, PartOk T refOf (fun _ => True) p := by
  intro l x y w h o hf ho
  refine docSafe_parts (c := l) (x := x) (y := y) (w := w) (h := h) (L := fun _ => True) ?_
  unfold docSafe
  rw [if_pos (show DocFine T refOf (fun _ => True) l w from hf)]
  exact ho

/-- what things of a document hold, up to `n` deep -/
def Spec.docNest (T : TextEnv) (refOf : Str → Str → Str) (n : Nat) : NSpec (DocNest n) := nestSpec (docSpec T refOf) LineLook (PDFColor Rat) n

theorem docNest_good (fuel n : Nat) : NGood (fun p => leafPartAtoms p.leaf) (docNest T refOf n) (docNestExec T fuel n) := nest_good doc_good fuel n

theorem docNest_parts (fuel n : Nat) : NParts (PartOk T refOf fun _ => True) (docNest T refOf n) (docNestExec T fuel n) := nest_parts doc_good doc_parts fuel n

/-! ### What is held -/

theorem held_flatMap {A A' : Type} (leaf : DocLeaf → List A) (image : Nat → List A) (f : A → List A') (k : Nat) : ∀ (n : Nat) (c : DocNest n),
    nestHeld (fun l => (leaf l).flatMap f) (fun i => (image i).flatMap f) k n c = (nestHeld leaf image k n c).flatMap f
  | 0, c => c.elim
  | n + 1, c => by
    cases c with
    | leaf t l =>
      simp only [nestHeld]
      split <;> rfl
    | table D rects =>
      simp only [nestHeld, List.flatMap_assoc]
      congr 1; funext row
      congr 1; funext c
      cases c.bind (·.content) with
      | none => rfl
      | some x => exact held_flatMap leaf image f k n x
    | box gap els rects =>
      simp only [nestHeld, List.flatMap_assoc]
      congr 1; funext e
      cases e with
      | leaf c st => exact held_flatMap leaf image f k n c
      | image i =>
        simp only [elHeld]
        split <;> rfl
      | group => rfl
      | child => rfl

/-- what a paragraph or image holds, as `docNest` has it -/
def leafHeld (l : DocLeaf) : List (CAtom LAtom) := (leafAtoms (leafOf l)).map .text

def imageHeld (n : Nat) : List (CAtom LAtom) := [.image n]

theorem held_total (k : Nat) : ∀ (n : Nat) (c : DocNest n), nestHeld leafHeld imageHeld k n c = (docNest T refOf n).total k c
  | 0, c => c.elim
  | n + 1, c => by
    have ih := held_total k n
    cases c with
    | leaf t l => rfl
    | table D rects =>
      show (D.content.flatMap fun row => row.flatMap fun c => restOf (nestHeld leafHeld imageHeld k n) (c.bind (·.content))) =
        D.content.flatMap fun row => row.flatMap fun c => restOf ((docNest T refOf n).total k) (c.bind (·.content))
      rw [funext ih]
    | box gap els rects =>
      show els.flatMap (elHeld imageHeld (nestHeld leafHeld imageHeld k n) k) = els.flatMap ((docNest T refOf n).elTotal k)
      congr 1; funext e
      cases e with
      | leaf c st => exact ih c
      | image i => rfl
      | group => rfl
      | child => rfl

theorem box_total (b : DocBox) (k : Nat) : b.els.flatMap ((docNest T refOf b.depth).elTotal k) = boxHeld leafHeld imageHeld b k := by
  unfold boxHeld
  congr 1; funext e
  cases e with
  | leaf c st => exact (held_total k b.depth c).symm
  | image i => rfl
  | group => rfl
  | child => rfl

theorem grid_total (g : DocGrid) (k : Nat) : (g.data.content.flatMap fun row => row.flatMap fun c => restOf ((docNest T refOf g.depth).total k) (c.bind (·.content))) =
    gridHeld leafHeld imageHeld g k := by
  unfold gridHeld
  rw [← funext (held_total (T := T) (refOf := refOf) k g.depth)]

theorem boxHeld_flatMap {A A' : Type} (leaf : DocLeaf → List A) (image : Nat → List A) (f : A → List A') (b : DocBox) (k : Nat) :
    boxHeld (fun l => (leaf l).flatMap f) (fun i => (image i).flatMap f) b k = (boxHeld leaf image b k).flatMap f :=
  held_flatMap leaf image f k (b.depth + 1) (Node.box b.gap b.els [])

theorem gridHeld_flatMap {A A' : Type} (leaf : DocLeaf → List A) (image : Nat → List A) (f : A → List A') (g : DocGrid) (k : Nat) :
    gridHeld (fun l => (leaf l).flatMap f) (fun i => (image i).flatMap f) g k = (gridHeld leaf image g k).flatMap f :=
  held_flatMap leaf image f k (g.depth + 1) (Node.table g.data [])

/-- the images among what is held -/
def heldImage (images : Nat → PImg) (tot : Nat → List (CAtom LAtom)) (im : PImg) : Prop :=
  ∃ k, ∃ a ∈ tot k, match a with
    | .text (.word _) => False
    | .text (.image q) => im = q
    | .image n => im = images n

theorem tagDoc_ok {images : Nat → PImg} {tot : Nat → List (CAtom LAtom)} (hL : ∀ im, heldImage images tot im → L im) {ps : List (TagPart DocPart)}
    (hps : ∀ k, ps.flatMap (natoms (fun p => leafPartAtoms p.leaf) k) ⊆ tot k) (hok : ∀ p ∈ ps, tagOk (PartOk T refOf fun _ => True) p) :
    ∀ p ∈ ps, PartOk T refOf L (tagDoc images p) := by
  intro p hp
  have h1 := hok p hp
  have hin : ∀ k, ∀ a ∈ natoms (fun p => leafPartAtoms p.leaf) k p, a ∈ tot k := fun k a ha => hps k (List.mem_flatMap.2 ⟨p, hp, ha⟩)
  cases p with
  | image n x y w h => exact hL _ ⟨n, .image n, hin n _ (by simp [natoms]), rfl⟩
  | leaf q =>
    obtain ⟨t, q⟩ := q
    cases q with
    | par => exact h1
    | image im x y w h => exact hL _ ⟨t, .text (.image im), hin t _ (by simp [natoms, DocPart.leaf, leafPartAtoms]), rfl⟩

/-- the runs of a content box as they were -/
def BoxState (T : TextEnv) (fuel : Nat) (b : DocBox) (Ws : List Rat) (s : CContent (DocNest b.depth) (TagPart DocPart) LineLook (PDFColor Rat)) : Prop :=
  s.finished = false ∧ ∃ rects ps, (∀ r ∈ rects, r.2.2.1 ∈ Ws) ∧ (CContent.new 1 b.gap b.els).runs (docNestExec T fuel b.depth) fuel rects = .ok (ps, s)

theorem content_safe {fuel : Nat} {b : DocBox} {Ws : List Rat} (hb : BoxFit (docNest T refOf b.depth) b.els Ws)
    (hL : ∀ im, heldImage b.images (boxHeld leafHeld imageHeld b) im → L im) :
    FlowSafe T refOf L (· ∈ Ws) (BoxState T fuel b Ws) (contentFlow T fuel b) := by
  rintro s x y w h o hw ⟨hf, rects, ps, hW, hr⟩ ho
  unfold contentFlow at ho
  split at ho
  · cases ho
  · rename_i s' hs
    split at ho
    · cases ho
    · cases ho
      have hr' : (CContent.new 1 b.gap b.els).runs (docNestExec T fuel b.depth) fuel (rects ++ [(x, y, w, h)]) = .ok (ps ++ s'.out.parts, s') := by
        rw [contentBox_runs_snoc, hr]
        simp [hf, hs]
      have hW' : ∀ r ∈ rects ++ [(x, y, w, h)], r.2.2.1 ∈ Ws := by
        intro r hr
        rcases List.mem_append.1 hr with hr | hr
        · exact hW r hr
        · simp only [List.mem_singleton] at hr
          subst hr
          exact hw
      refine ⟨?_, fun hfin => ⟨hfin, _, _, hW', hr'⟩⟩
      intro a ha
      obtain ⟨q, hq, rfl⟩ := List.mem_map.1 ha
      refine tagDoc_ok hL (ps := (ps ++ s'.out.parts).map CPart.join) (fun k => box_total (T := T) (refOf := refOf) b k ▸ (box_shows (docNest_good fuel b.depth) hb hW' hr' k).1.subset) ?_ _
        (List.mem_map.2 ⟨q, List.mem_append.2 (Or.inr hq), rfl⟩)
      intro p hp
      obtain ⟨p', hp', rfl⟩ := List.mem_map.1 hp
      exact box_parts (docNest_good fuel b.depth) (docNest_parts fuel b.depth) hb hW' hr' p' hp'

/-- the runs of a table as they were -/
def GridState (T : TextEnv) (fuel : Nat) (g : DocGrid) (Ws : List Rat) (s : TS (DocNest g.depth) (TagPart DocPart) LineLook (PDFColor Rat)) : Prop :=
  ∃ rects ps, (∀ r ∈ rects, r.2.2.1 ∈ Ws) ∧ (TS.new 0 0 0 0).runs (g.data.conf (docNestExec T fuel g.depth)) rects = .ok (ps, s)

theorem grid_safe {fuel : Nat} {g : DocGrid} {Ws : List Rat} (hg : TableFit (docNest T refOf g.depth) g.data Ws)
    (hL : ∀ im, heldImage g.images (gridHeld leafHeld imageHeld g) im → L im) :
    FlowSafe T refOf L (· ∈ Ws) (GridState T fuel g Ws) (gridFlow T fuel g) := by
  rintro s x y w h o hw ⟨rects, ps, hW, hr⟩ ho
  unfold gridFlow at ho
  split at ho
  · cases ho
  · rename_i s' hs
    split at ho
    · cases ho
    · cases ho
      have hr' : (TS.new 0 0 0 0).runs (g.data.conf (docNestExec T fuel g.depth)) (rects ++ [(x, y, w, h)]) = .ok (ps ++ s'.parts, s') := by
        rw [runs_snoc, hr]
        simp [hs]
      have hW' : ∀ r ∈ rects ++ [(x, y, w, h)], r.2.2.1 ∈ Ws := by
        intro r hr
        rcases List.mem_append.1 hr with hr | hr
        · exact hW r hr
        · simp only [List.mem_singleton] at hr
          subst hr
          exact hw
      refine ⟨?_, fun _ => ⟨_, _, hW', hr'⟩⟩
      intro a ha
      obtain ⟨q, hq, rfl⟩ := List.mem_map.1 ha
      refine tagDoc_ok hL (ps := s'.parts) (fun k => ?_) (table_parts (docNest_good fuel g.depth) (docNest_parts fuel g.depth) hg hW hr hw hs) _ hq
      have := (table_shows (K := docSpec T refOf) (docNest_good fuel g.depth) hg hW' hr' k).1.subset
      rw [List.flatMap_append] at this
      rw [← grid_total (T := T) (refOf := refOf) g k]
      exact fun a ha => this (List.mem_append.2 (Or.inr ha))

/-! ### Finished -/

theorem content_runs {fuel : Nat} {b : DocBox} : ∀ (rects : List (Rat × Rat × Rat × Rat)) (outs : List (FlowOut _)) (s : CContent (DocNest b.depth) (TagPart DocPart) LineLook (PDFColor Rat)),
    s.finished = false → FlowChain (contentFlow T fuel b) s rects outs →
    ∃ ps s', s.runs (docNestExec T fuel b.depth) fuel rects = .ok (ps, s') ∧ outs.flatMap FlowOut.parts = (ps.map CPart.join).map (tagDoc b.images) ∧
      ∀ o, outs.getLast? = some o → s'.finished = o.finished := by
  intro rects
  induction rects with
  | nil =>
    intro outs s _ h
    cases outs with
    | nil => exact ⟨[], s, rfl, rfl, by simp⟩
    | cons o outs => exact h.elim
  | cons r rects ih =>
    intro outs s hf h
    obtain ⟨x, y, w, ht⟩ := r
    cases outs with
    | nil => exact h.elim
    | cons o outs =>
      obtain ⟨h1, h0, h2⟩ := h
      unfold contentFlow at h1
      split at h1
      · cases h1
      · rename_i s1 hr
        split at h1
        · cases h1
        · cases h1
          cases rects with
          | nil =>
            cases outs with
            | cons => exact h2.elim
            | nil =>
              refine ⟨s1.out.parts, s1, ?_, by simp [Function.comp_def], ?_⟩
              · simp only [CContent.runs, hf, Bool.false_eq_true, if_false, hr, List.append_nil]
              · intro o ho
                simp only [List.getLast?_singleton, Option.some.injEq] at ho
                subst ho
                rfl
          | cons r rects =>
            obtain ⟨ps, s', e1, e2, e3⟩ := ih outs s1 (h0 (by simp)) h2
            refine ⟨s1.out.parts ++ ps, s', ?_, ?_, ?_⟩
            · rw [CContent.runs]
              simp only [hf, Bool.false_eq_true, if_false, hr, e1]
            · rw [List.flatMap_cons, e2]
              simp [Function.comp_def]
            · intro o ho
              cases outs with
              | nil => exact h2.elim
              | cons o1 outs =>
                rw [List.getLast?_cons_cons] at ho
                exact e3 o ho

theorem grid_runs {fuel : Nat} {g : DocGrid} : ∀ (rects : List (Rat × Rat × Rat × Rat)) (outs : List (FlowOut _)) (s : TS (DocNest g.depth) (TagPart DocPart) LineLook (PDFColor Rat)),
    FlowChain (gridFlow T fuel g) s rects outs →
    ∃ ps s', s.runs (g.data.conf (docNestExec T fuel g.depth)) rects = .ok (ps, s') ∧ outs.flatMap FlowOut.parts = ps.map (tagDoc g.images) ∧
      ∀ o, outs.getLast? = some o → s'.finished = o.finished := by
  intro rects
  induction rects with
  | nil =>
    intro outs s h
    cases outs with
    | nil => exact ⟨[], s, rfl, rfl, by simp⟩
    | cons o outs => exact h.elim
  | cons r rects ih =>
    intro outs s h
    obtain ⟨x, y, w, ht⟩ := r
    cases outs with
    | nil => exact h.elim
    | cons o outs =>
      obtain ⟨h1, -, h2⟩ := h
      unfold gridFlow at h1
      split at h1
      · cases h1
      · rename_i s1 hr
        split at h1
        · cases h1
        · cases h1
          obtain ⟨ps, s', e1, e2, e3⟩ := ih outs s1 h2
          refine ⟨s1.parts ++ ps, s', ?_, ?_, ?_⟩
          · simp only [TS.runs, hr, e1]
          · rw [List.flatMap_cons, e2]
            simp
          · intro o ho
            cases outs with
            | nil =>
              simp only [List.getLast?_singleton, Option.some.injEq] at ho
              subst ho
              cases rects with
              | nil => cases e1; rfl
              | cons => exact h2.elim
            | cons o1 outs =>
              rw [List.getLast?_cons_cons] at ho
              exact e3 o ho

/-- a content box that was finished has shown what it holds, in order -/
theorem content_held {fuel : Nat} {b : DocBox} {Ws : List Rat} (hb : BoxFit (docNest T refOf b.depth) b.els Ws) {rects : List (Rat × Rat × Rat × Rat)}
    {outs : List (FlowOut (CContent (DocNest b.depth) (TagPart DocPart) LineLook (PDFColor Rat)))} (hch : FlowChain (contentFlow T fuel b) (CContent.new 1 b.gap b.els) rects outs)
    (hW : ∀ r ∈ rects, r.2.2.1 ∈ Ws) (hfin : ∃ o, outs.getLast? = some o ∧ o.finished = true) :
    ∃ ps : List (TagPart DocPart), outs.flatMap FlowOut.parts = ps.map (tagDoc b.images) ∧
      (∀ k, ps.flatMap (natoms (fun p => leafPartAtoms p.leaf) k) = boxHeld leafHeld imageHeld b k) ∧ PartsOrder (fun p => leafPartAtoms p.leaf) (boxBefore b) ps := by
  obtain ⟨ps, s', e1, e2, e3⟩ := content_runs rects outs _ rfl hch
  obtain ⟨o, ho, hf⟩ := hfin
  refine ⟨_, e2, fun k => ?_, box_order doc_good hb hW e1⟩
  rw [← box_total (T := T) (refOf := refOf)]
  exact (box_shows (docNest_good fuel b.depth) hb hW e1 k).2 (by rw [e3 o ho]; exact hf)

/-- a table that was finished has shown what it holds, in order -/
theorem grid_held {fuel : Nat} {g : DocGrid} {Ws : List Rat} (hg : TableFit (docNest T refOf g.depth) g.data Ws) {rects : List (Rat × Rat × Rat × Rat)}
    {outs : List (FlowOut (TS (DocNest g.depth) (TagPart DocPart) LineLook (PDFColor Rat)))} (hch : FlowChain (gridFlow T fuel g) (TS.new 0 0 0 0) rects outs)
    (hW : ∀ r ∈ rects, r.2.2.1 ∈ Ws) (hfin : ∃ o, outs.getLast? = some o ∧ o.finished = true) :
    ∃ ps : List (TagPart DocPart), outs.flatMap FlowOut.parts = ps.map (tagDoc g.images) ∧
      (∀ k, ps.flatMap (natoms (fun p => leafPartAtoms p.leaf) k) = gridHeld leafHeld imageHeld g k) ∧ PartsOrder (fun p => leafPartAtoms p.leaf) (gridBefore g) ps := by
  obtain ⟨ps, s', e1, e2, e3⟩ := grid_runs rects outs _ hch
  obtain ⟨o, ho, hf⟩ := hfin
  refine ⟨_, e2, fun k => ?_, table_order doc_good hg hW e1⟩
  rw [← grid_total (T := T) (refOf := refOf)]
  exact (table_shows (K := docSpec T refOf) (docNest_good fuel g.depth) hg hW e1 k).2 (by rw [e3 o ho]; exact hf)

end
end Verif
