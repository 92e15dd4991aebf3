import Verif.Props.C36_Balance
/-! C38: groups are placed completely or not at all. -/
namespace Verif
open Spec

variable {σ P B C A : Type}

/-- contents whose result depends only on the width and, as long as they find room, not on the height -/
def Spec.Steady (exec : σ → Rat → Rat → Rat → Rat → Except PyErr (CellOut σ P B C)) : Prop :=
  ∀ c x y w h o, exec c x y w h = .ok o → o.finished = true → ∀ x' y' h', h ≤ h' →
    ∃ o', exec c x' y' w h' = .ok o' ∧ o'.finished = true ∧ o'.height = o.height

/-- what the paragraphs and tables of a group have to show -/
def Spec.groupAtoms (rest : σ → List A) : List (GEl σ) → List (CAtom A)
  | [] => []
  | .leaf c _ :: l => (rest c).map .text ++ groupAtoms rest l
  | .image i :: l => .image i.name :: groupAtoms rest l

def Spec.isLeaf : GEl σ → Bool
  | .leaf _ _ => true
  | .image _ => false

section
variable {exec : σ → Rat → Rat → Rat → Rat → Except PyErr (CellOut σ P B C)}

theorem BoxFrame.symm {f g : CBox σ} (a : BoxFrame f g) : BoxFrame g f :=
  ⟨a.elements.symm, a.cols.symm, a.gapOpt.symm, a.last.symm, a.sectionIndex.symm, a.sectionDelayed.symm, a.childrenMemory.symm, a.partialMemory.symm, a.minX.symm, a.minY.symm, a.maxY.symm, a.colsGap.symm, a.colWidth.symm, a.column.symm, a.index.symm, a.delayed.symm, a.willReset.symm, a.resetting.symm, a.partsIndex.symm, a.diffLast.symm, a.diff.symm, a.forward.symm⟩

/-- where the next element would start, without its top margin -/
def nextTop (f : CBox σ) : Rat := f.y - f.lastBottom

theorem leaf_ok {f f' : CBox σ} {w w' : COut P B C} {c : σ} {st : CStyle} {add top : Bool} {r : Option σ} (h : f.leaf exec w c st add top = .ok (r, f', w')) :
    ∃ o, exec c ((f.descend st top).elX st) (f.descend st top).y ((f.descend st top).elWidth st) (f.descend st top).room = .ok o ∧
      r = (if o.finished then none else some o.next) ∧ f' = (f.descend st top).took f.y o.height st ∧ w' = if add then w.add o else w := by
  unfold CBox.leaf at h
  simp only at h
  split at h
  · cases h
  · rename_i o ho
    simp only [Except.ok.injEq, Prod.mk.injEq] at h
    exact ⟨o, ho, h.1.symm, h.2.1.symm, h.2.2.symm⟩

/-- two boxes at the same place of the same column, one higher than the other -/
structure Above (f g : CBox σ) : Prop where
  frame : BoxFrame f g
  f0 : f.starting = false
  g0 : g.starting = false
  top : nextTop f ≤ nextTop g

/-- one paragraph or table of a group: if it finds room in a box, then also in a higher one, and it needs the same room -/
theorem leaf_above (hs : Steady exec) {f g f' : CBox σ} {w w0 w' : COut P B C} {c : σ} {st : CStyle} {top : Bool} (ha : Above f g)
    (h : f.leaf exec w c st false top = .ok (none, f', w')) :
    ∃ g' o, g.leaf exec w0 c st true top = .ok (none, g', w0.add o) ∧ o.finished = true ∧ Above f' g' ∧
      exec c ((g.descend st top).elX st) (g.descend st top).y ((g.descend st top).elWidth st) (g.descend st top).room = .ok o := by
  obtain ⟨o, h1, h2, h3, -⟩ := leaf_ok h
  have hfin : o.finished = true := by
    by_contra hn
    rw [if_neg hn] at h2
    cases h2
  have ff := descend_frame f st top
  have fg := descend_frame g st top
  have hw : (g.descend st top).elWidth st = (f.descend st top).elWidth st := by
    unfold CBox.elWidth
    rw [ff.colWidth, fg.colWidth, ha.frame.colWidth]
  have hy : ∀ k : CBox σ, k.starting = false → (k.descend st top).y = nextTop k - (if top then st.top else 0) := by
    intro k hk
    unfold CBox.descend nextTop
    rw [if_neg (by rw [hk]; simp)]
    simp only
    linarith
  have hroom : (f.descend st top).room ≤ (g.descend st top).room := by
    unfold CBox.room
    rw [hy f ha.f0, hy g ha.g0, ff.maxY, fg.maxY, ha.frame.maxY]
    have := ha.top
    exact max_le_max (le_refl _) (by linarith)
  obtain ⟨o', k1, k2, k3⟩ := hs _ _ _ _ _ _ h1 hfin ((g.descend st top).elX st) (g.descend st top).y _ hroom
  rw [← hw] at k1
  refine ⟨(g.descend st top).took g.y o'.height st, o', ?_, k2, ?_, k1⟩
  · unfold CBox.leaf
    simp only
    rw [k1]
    simp [k2]
  · have hst : ∀ k : CBox σ, (k.descend st top).starting = k.starting := by
      intro k; unfold CBox.descend; split <;> rfl
    have hlb : ∀ k : CBox σ, (k.descend st top).lastBottom = k.lastBottom := by
      intro k; unfold CBox.descend; split <;> rfl
    rw [h3, k3]
    have t1 := took_frame (f.descend st top) f.y o.height st
    have t2 := took_frame (g.descend st top) g.y o.height st
    refine ⟨?_, ?_, ?_, ?_⟩
    · exact ((ff.trans t1).symm.trans ha.frame).trans (fg.trans t2)
    · unfold CBox.took; split
      · rfl
      · exact (hst f).trans ha.f0
    · unfold CBox.took; split
      · rfl
      · exact (hst g).trans ha.g0
    · have h0 := ha.top
      unfold CBox.took
      split
      · show (f.descend st top).y - o.height - st.bottom ≤ (g.descend st top).y - o.height - st.bottom
        rw [hy f ha.f0, hy g ha.g0]
        linarith
      · show f.y - (f.descend st top).lastBottom ≤ g.y - (g.descend st top).lastBottom
        rw [hlb, hlb]
        exact h0

/-- the bottom margin of an element of a group -/
def GEl.bottom : GEl σ → Rat
  | .leaf _ st => st.bottom
  | .image i => i.style.bottom

/-- the first passage over paragraphs and tables that all found room -/
theorem groupTry_leaves {w : COut P B C} (l : List (GEl σ)) {top : Bool} {f f1 : CBox σ} {l' : List (GEl σ)} {b : Bool} {m : Rat} (hl : ∀ e ∈ l, isLeaf e = true)
    (h0 : f.starting = false) (hm : f.lastBottom ≤ m) (hb : ∀ e ∈ l, e.bottom ≤ m) (h : CBox.groupTry exec w top l f = .ok (b, l', f1)) :
    BoxFrame f f1 ∧ f1.starting = false ∧ f1.lastBottom ≤ m ∧ l' = l := by
  induction l generalizing top f l' b f1 with
  | nil =>
    simp only [CBox.groupTry, Except.ok.injEq, Prod.mk.injEq] at h
    obtain ⟨-, rfl, rfl⟩ := h
    exact ⟨BoxFrame.refl _, h0, hm, rfl⟩
  | cons e l ih =>
    cases e with
    | image i => exact absurd (hl (.image i) (by simp)) (by simp [isLeaf])
    | leaf c st =>
      simp only [CBox.groupTry, CBox.groupEl] at h
      cases h1 : f.leaf exec w c st false top with
      | error e => rw [h1] at h; cases h
      | ok q =>
        obtain ⟨r, f2, w2⟩ := q
        rw [h1] at h
        have hfr := leaf_frame h1
        obtain ⟨o, -, -, h3, -⟩ := leaf_ok h1
        have hst : (f.descend st top).starting = f.starting := by unfold CBox.descend; split <;> rfl
        have hlb : (f.descend st top).lastBottom = f.lastBottom := by unfold CBox.descend; split <;> rfl
        have h20 : f2.starting = false := by
          rw [h3]; unfold CBox.took; split
          · rfl
          · exact hst.trans h0
        have h2m : f2.lastBottom ≤ m := by
          rw [h3]; unfold CBox.took; split
          · exact hb (.leaf c st) (by simp)
          · show (f.descend st top).lastBottom ≤ m
            rw [hlb]; exact hm
        cases r with
        | some d =>
          simp only [Option.isNone_some, Except.ok.injEq, Prod.mk.injEq] at h
          obtain ⟨-, rfl, rfl⟩ := h
          exact ⟨hfr, h20, h2m, rfl⟩
        | none =>
          simp only [Option.isNone_none] at h
          cases h4 : CBox.groupTry exec w true l f2 with
          | error e => rw [h4] at h; cases h
          | ok q =>
            obtain ⟨b', l2, f3⟩ := q
            rw [h4] at h
            simp only [Except.ok.injEq, Prod.mk.injEq] at h
            obtain ⟨-, rfl, rfl⟩ := h
            obtain ⟨k1, k2, k3, rfl⟩ := ih (fun e he => hl e (by simp [he])) h20 h2m (fun e he => hb e (by simp [he])) h4
            exact ⟨hfr.trans k1, k2, k3, rfl⟩

/-- the second passage, from a higher place -/
theorem groupPut_leaves (hs : Steady exec) {atoms : P → List A} {rest : σ → List A} (H : Honest exec atoms rest) {w : COut P B C} (ratio : Rat) (l : List (GEl σ))
    {top : Bool} {f g f1 : CBox σ} {l' : List (GEl σ)} (w0 : COut P B C) (hl : ∀ e ∈ l, isLeaf e = true) (ha : Above f g)
    (h : CBox.groupTry exec w top l f = .ok (true, l', f1)) :
    ∃ l2 g' w', CBox.groupPut exec ratio top l g w0 = .ok (l2, g', w') ∧
      w'.parts.flatMap (boxAtoms atoms) = w0.parts.flatMap (boxAtoms atoms) ++ groupAtoms rest l := by
  induction l generalizing top f g l' w0 f1 with
  | nil => exact ⟨[], g, w0, rfl, by simp [groupAtoms]⟩
  | cons e l ih =>
    cases e with
    | image i => exact absurd (hl (.image i) (by simp)) (by simp [isLeaf])
    | leaf c st =>
      simp only [CBox.groupTry, CBox.groupEl] at h
      cases h1 : f.leaf exec w c st false top with
      | error e => rw [h1] at h; cases h
      | ok q =>
        obtain ⟨r, f2, w2⟩ := q
        rw [h1] at h
        cases r with
        | some d => simp at h
        | none =>
          simp only [Option.isNone_none] at h
          obtain ⟨g', o, k1, k2, k3, k4⟩ := leaf_above hs (w0 := w0) ha h1
          cases h4 : CBox.groupTry exec w true l f2 with
          | error e => rw [h4] at h; cases h
          | ok q =>
            obtain ⟨b', l2, f3⟩ := q
            rw [h4] at h
            simp only [Except.ok.injEq, Prod.mk.injEq] at h
            obtain ⟨rfl, -, rfl⟩ := h
            obtain ⟨l3, g3, w3, j1, j2⟩ := ih (w0.add o) (fun e he => hl e (by simp [he])) k3 h4
            refine ⟨.leaf c st :: l3, g3, w3, ?_, ?_⟩
            · simp only [CBox.groupPut, CBox.groupEl, k1, j1]
            · rw [j2]
              have e1 := H.step _ _ _ _ _ _ k4
              rw [H.done _ _ _ _ _ _ k4 k2, List.append_nil] at e1
              simp only [COut.add, groupAtoms, List.flatMap_append, List.append_assoc]
              congr 1
              rw [← e1, List.map_flatMap, List.flatMap_map]
              rfl

/-- C38 (partial): a group that is not placed adds nothing, whatever it holds, and the next element starts from where the group would have started. A group of paragraphs and tables that is placed is placed completely, if it does not start a column
and no bottom margin in it is larger than the bottom margin of the element before the group and the top margin of the group together. Partial because without these
conditions a part of the group may be lost (`C38_start_lost_false`, `C38_image_lost_false`). -/
theorem C38_group_partial (exec : σ → Rat → Rat → Rat → Rat → Except PyErr (CellOut σ P B C)) (atoms : P → List A) (rest : σ → List A) (H : Honest exec atoms rest)
    (f f' : CBox σ) (w w' : COut P B C) (l : List (GEl σ)) (t : Nat) (st : CStyle) (a : CAns σ) (e' : CEl σ)
    (h : f.process exec w (.group l t st) = .ok (a, e', f', w')) :
    (a.delayed ≠ none ∧ w' = w ∧ f'.y = f.y ∧ a.flow = true ∧ a.next = false) ∨
    (a.delayed = none ∧ (Steady exec → (∀ e ∈ l, isLeaf e = true) → f.starting = false → 0 ≤ st.top → (∀ e ∈ l, e.bottom ≤ f.lastBottom + st.top) →
      w'.parts.flatMap (boxAtoms atoms) = w.parts.flatMap (boxAtoms atoms) ++ groupAtoms rest l)) := by
  unfold CBox.process at h
  simp only at h
  cases hg : f.group exec w l t st with
  | error e => rw [hg] at h; cases h
  | ok q =>
    obtain ⟨b, l1, t1, f1, w1⟩ := q
    rw [hg] at h
    unfold CBox.group at hg
    cases b with
    | false =>
      simp only [Except.ok.injEq, Prod.mk.injEq] at h
      obtain ⟨rfl, -, rfl, rfl⟩ := h
      left
      refine ⟨by simp, ?_⟩
      split at hg
      · cases hg
      · split at hg
        · cases hg
        · simp only [Except.ok.injEq, Prod.mk.injEq] at hg
          exact ⟨hg.2.2.2.2.symm, by rw [← hg.2.2.2.1], rfl, rfl⟩
      · simp only at hg
        split at hg
        · cases hg
        · split at hg
          · cases hg
          · simp only [Except.ok.injEq, Prod.mk.injEq] at hg
            cases hg.1
    | true =>
      simp only [Except.ok.injEq, Prod.mk.injEq] at h
      obtain ⟨rfl, -, -, rfl⟩ := h
      right
      refine ⟨rfl, ?_⟩
      intro hs hl h0 htop hbot
      rw [if_neg (by rw [h0]; simp)] at hg
      cases ht : CBox.groupTry exec w false l { f with y := f.y - st.top } with
      | error e => rw [ht] at hg; cases hg
      | ok q =>
        obtain ⟨b, l2, f2⟩ := q
        rw [ht] at hg
        obtain ⟨k1, k2, k3, rfl⟩ := groupTry_leaves (f := { f with y := f.y - st.top }) l hl (m := f.lastBottom + st.top) h0 (by show f.lastBottom ≤ _; linarith) hbot ht
        cases b with
        | false =>
          simp only at hg
          split at hg
          · cases hg
          · simp only [Except.ok.injEq, Prod.mk.injEq] at hg
            cases hg.1
        | true =>
          simp only at hg
          split at hg
          · cases hg
          · have hab : Above { f with y := f.y - st.top } { f2 with y := f.y } := by
              refine ⟨⟨k1.1, k1.2, k1.3, k1.4, k1.5, k1.6, k1.7, k1.8, k1.9, k1.10, k1.11, k1.12, k1.13, k1.14, k1.15, k1.16, k1.17, k1.18, k1.19, k1.20, k1.21, k1.22⟩, h0, k2, ?_⟩
              show f.y - st.top - f.lastBottom ≤ f.y - f2.lastBottom
              linarith
            generalize (if List.filterMap (fun x => x.minHeight) l2 = [] ∨ st.shrink = true then (1 : Rat)
                else ((List.filterMap (fun x => x.minHeight) l2).sum + f2.y - f2.maxY) / (List.filterMap (fun x => x.minHeight) l2).sum) = ratio at hg
            obtain ⟨l3, g3, w3, j1, j2⟩ := groupPut_leaves hs H ratio l2 w hl hab ht
            rw [j1] at hg
            simp only [Except.ok.injEq, Prod.mk.injEq] at hg
            rw [← hg.2.2.2.2]
            exact j2

end

/-! ### Examples and counterexamples -/

theorem lines_steady : Steady linesExec := by
  intro c x y w h o ho hf x' y' h' hh
  cases ho
  refine ⟨_, rfl, ?_⟩
  simp only at hf ⊢
  have hn : c.length ≤ (h / 10).floor.toNat := by
    rw [List.isEmpty_iff, List.drop_eq_nil_iff] at hf
    exact hf
  have hn' : c.length ≤ (h' / 10).floor.toNat := by
    have h1 : (h / 10).floor ≤ (h' / 10).floor := Rat.floor_monotone (by linarith)
    omega
  rw [List.drop_eq_nil_of_le hn', List.take_of_length_le hn', List.take_of_length_le hn]
  exact ⟨rfl, rfl⟩

/-- the group does not fit below `uvw` and goes to the next rectangle as a whole -/
example : contentShown 1 [.leaf c!"uvw" contStyle, .group [.leaf c!"abc" contStyle, .leaf c!"d" contStyle] 0 contStyle, .leaf c!"xyz" contStyle] [71, 70] =
    .ok ([[.leaf c!"uvw", .leaf c!"xyz"], [.leaf c!"abc", .leaf c!"d"]], true) := by decide +kernel

/-- in a higher rectangle it does -/
example : contentShown 1 [.leaf c!"uvw" contStyle, .group [.leaf c!"abc" contStyle, .leaf c!"d" contStyle] 0 contStyle, .leaf c!"xyz" contStyle] [125] =
    .ok ([[.leaf c!"uvw", .leaf c!"abc", .leaf c!"d", .leaf c!"xyz"]], true) := by decide +kernel

/-- C38 fails at the start of a column: the first passage finds room for the group, but the second one starts lower by the bottom margin of its last element, and
what finds no room is lost -/
theorem C38_start_lost_false :
    contentShown 1 [.group [.leaf c!"abc" contStyle] 0 contStyle, .leaf c!"xyz" contStyle] [31, 50] = .ok ([[.leaf c!"ab", .leaf c!""], [.leaf c!"xyz"]], true) := by
  decide +kernel

/-- C38 fails for the space around a group that is not placed: an image at the start of the column touches its top, but after a group that was tried and put off it is
lower by the bottom margin of an element of the group -/
theorem C38_spacing_false :
    contentShown 1 [.image ⟨7, 100, 20, 0, contStyle⟩] [60] = .ok ([[.image 7 0 40 100 20]], true) ∧
    contentShown 1 [.group [.leaf c!"abc" contStyle, .leaf c!"defg" contStyle] 0 contStyle, .image ⟨7, 100, 20, 0, contStyle⟩] [60, 200] =
      .ok ([[.image 7 0 35 100 20], [.leaf c!"abc", .leaf c!"defg"]], true) := by
  constructor <;> decide +kernel

/-- C38 fails for images: the second image of the group is lost -/
theorem C38_image_lost_false :
    contentShown 1 [.group [.image ⟨1, 100, 60, 0, { contStyle with minHeight := some 20 }⟩, .image ⟨2, 100, 10, 0, contStyle⟩] 0 contStyle] [55] =
      .ok ([[.image 1 (50 / 3) 10 (200 / 3) 40]], true) := by
  decide +kernel

end Verif
