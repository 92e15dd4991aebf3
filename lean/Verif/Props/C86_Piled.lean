import Verif.Props.C85_InBox
import Verif.Spec.Piled
/-! C86: what a content box of one column shows is one below the other. -/
namespace Verif
open Spec

variable {σ P B C : Type}

section
variable {exec : σ → Rat → Rat → Rat → Rat → Except PyErr (CellOut σ P B C)} {area : P → Area} {m : Rat} {R : Area}

/-- `qs` has, after `ps`, blocks between `y` and `y'`, which is not lower than `floor` -/
def Grow (area : P → Area) (exec : σ → Rat → Rat → Rat → Rat → Except PyErr (CellOut σ P B C)) (floor y : Rat) (ps : List (CPart P)) (y' : Rat) (qs : List (CPart P)) : Prop :=
  y' ≤ y ∧ (y' = y ∨ floor ≤ y') ∧ ∃ blocks : List (List (CPart P)), qs = ps ++ blocks.flatten ∧ (∀ b ∈ blocks, FromOne exec b) ∧
    (∀ b ∈ blocks, ∀ p ∈ b, (cArea area p).Seen → y' ≤ (cArea area p).bottom ∧ (cArea area p).top ≤ y) ∧ blocks.Pairwise (BlockBelow area)

theorem Grow.refl {floor y : Rat} (ps : List (CPart P)) : Grow area exec floor y ps y ps := ⟨le_refl _, .inl rfl, [], by simp, by simp, by simp, .nil⟩

theorem Grow.trans {floor y1 y2 y3 : Rat} {a b c : List (CPart P)} (h : Grow area exec floor y1 a y2 b) (h' : Grow area exec floor y2 b y3 c) : Grow area exec floor y1 a y3 c := by
  obtain ⟨l1, m1, b1, e1, f1, p1, q1⟩ := h
  obtain ⟨l2, m2, b2, e2, f2, p2, q2⟩ := h'
  refine ⟨le_trans l2 l1, ?_, b1 ++ b2, by rw [e2, e1]; simp, ?_, ?_, ?_⟩
  · rcases m2 with m2 | m2
    · rw [m2]; exact m1
    · exact .inr m2
  · intro b hb
    rcases List.mem_append.1 hb with hb | hb
    · exact f1 b hb
    · exact f2 b hb
  · intro b hb p hp hs
    rcases List.mem_append.1 hb with hb | hb
    · exact ⟨le_trans l2 (p1 b hb p hp hs).1, (p1 b hb p hp hs).2⟩
    · exact ⟨(p2 b hb p hp hs).1, le_trans (p2 b hb p hp hs).2 l1⟩
  · rw [List.pairwise_append]
    refine ⟨q1, q2, ?_⟩
    intro b hb b' hb' p hp q hq hs hs'
    exact le_trans (p2 b' hb' q hq hs').2 (p1 b hb p hp hs).1

/-- one block -/
theorem Grow.block {floor y y' : Rat} {ps b : List (CPart P)} (h : y' ≤ y) (hl : y' = y ∨ floor ≤ y') (hf : FromOne exec b)
    (hb : ∀ p ∈ b, (cArea area p).Seen → y' ≤ (cArea area p).bottom ∧ (cArea area p).top ≤ y) : Grow area exec floor y ps y' (ps ++ b) :=
  ⟨h, hl, [b], by simp, by simpa using hf, by simpa using hb, List.pairwise_singleton _ _⟩

/-- if nothing is taken, nothing is to be seen -/
theorem Grow.lift {floor y0 y : Rat} {ps qs : List (CPart P)} (h : Grow area exec floor y ps y qs) : Grow area exec floor y0 ps y0 qs := by
  obtain ⟨-, -, b, e, f, p, q⟩ := h
  refine ⟨le_refl _, .inl rfl, b, e, f, ?_, q⟩
  intro c hc r hr hs
  obtain ⟨h1, h2⟩ := p c hc r hr hs
  unfold Area.Seen at hs
  exact absurd (lt_of_lt_of_le hs h2) (not_lt.2 h1)

/-- from higher up -/
theorem Grow.higher {floor y0 y y' : Rat} {ps qs : List (CPart P)} (h : Grow area exec floor y ps y' qs) (hy : y ≤ y0) (hne : y' < y) : Grow area exec floor y0 ps y' qs := by
  obtain ⟨l, n, b, e, f, p, q⟩ := h
  refine ⟨le_trans l hy, ?_, b, e, f, fun c hc r hr hs => ⟨(p c hc r hr hs).1, le_trans (p c hc r hr hs).2 hy⟩, q⟩
  rcases n with n | n
  · exact absurd n (ne_of_lt hne)
  · exact .inr n

theorem leaf_grow (hk : KeepsArea area exec) {f f' : CBox σ} {w w' : COut P B C} {c : σ} {st : CStyle} {top : Bool} {r : Option σ} (hst : 0 ≤ st.top) (hf : FrameIn True m R f)
    (h : f.leaf exec w c st true top = .ok (r, f', w')) : Grow area exec R.bottom f.y w.parts f'.y w'.parts := by
  obtain ⟨o, ho, -, rfl, rfl⟩ := leaf_ok h
  have hdi := descend_in f (top := top) hst hf.last
  have hd := hdi.y
  have hfl := (hf.floor trivial).2.1
  have hmax := hdi.frame.maxY
  obtain ⟨k1, k2⟩ := hk _ _ _ _ _ _ ho
  have hfrom : FromOne exec (o.parts.map CPart.leaf) := .inl ⟨_, _, _, _, _, o, ho, rfl⟩
  unfold CBox.took
  simp only [if_true]
  split
  · rename_i hpos
    refine Grow.block ?_ (.inr ?_) hfrom ?_
    · simp only
      linarith
    · have hr := k1 hpos
      simp only [CBox.room] at hr ⊢
      rcases max_cases 0 ((f.descend st top).y - (f.descend st top).maxY) with ⟨e, -⟩ | ⟨e, -⟩ <;> rw [e] at hr <;> linarith
    · intro p hp hs
      obtain ⟨q, hq, rfl⟩ := List.mem_map.1 hp
      obtain ⟨-, -, a3, a4⟩ := k2 q hq
      simp only [cArea] at a3 a4 ⊢
      exact ⟨a4, le_trans a3 hd⟩
  · rename_i hpos
    refine Grow.block (le_refl _) (.inl rfl) hfrom ?_
    intro p hp hs
    obtain ⟨q, hq, rfl⟩ := List.mem_map.1 hp
    obtain ⟨-, -, a3, a4⟩ := k2 q hq
    simp only [cArea, Area.Seen] at a3 a4 hs
    exact absurd (show o.height > 0 by linarith) hpos

theorem fit_room {i : CImg} {x width room : Rat} {r : Rat × Rat × Rat} (hi : ImgIn m i) (hw : 0 ≤ width) (h : i.fit x width room = some r) : r.2.2 ≤ room ∧ 0 < room := by
  unfold CImg.fit at h
  simp only at h
  split at h
  · rename_i hlt
    cases h
    refine ⟨le_of_lt hlt, lt_of_le_of_lt ?_ hlt⟩
    have h1 := hi.2.2.1
    have h2 := hi.2.2.2.1
    positivity
  · split at h
    · cases h
    · rename_i q hmin
      split at h
      · rename_i hle
        cases h
        have := hi.2.2.2.2 q hmin
        simp only
        refine ⟨?_, by linarith⟩
        split
        · exact hle
        · exact le_refl _
      · cases h

theorem image_grow {f f' : CBox σ} {w w' : COut P B C} {i : CImg} {top : Bool} {r : Option CImg} (hf : FrameIn True m R f) (hi : ImgIn m i) (hw : PartsIn area True R w.parts)
    (h : f.image w i true top = .ok (r, f', w')) : Grow area exec R.bottom f.y w.parts f'.y w'.parts := by
  have hy := (image_in hf hi hw h).1
  have hdi := descend_in f (top := top) hi.1.1 hf.last
  have hd := hdi.y
  have hfl := (hf.floor trivial).2.1
  have hmax := hdi.frame.maxY
  have hwd : 0 ≤ (f.descend i.style top).elWidth i.style := by
    have h1 := (hdi.frameIn hf).width
    have h2 := hi.2.1
    unfold CBox.elWidth
    linarith
  unfold CBox.image at h
  simp only at h
  split at h
  · cases h
  · split at h
    · rename_i x width height hfit
      simp only [Except.ok.injEq, Prod.mk.injEq, if_true] at h
      obtain ⟨rfl, rfl, rfl⟩ := h
      refine Grow.block hy.y (.inr ?_) (.inr ⟨_, _, _, _, _, rfl⟩) ?_
      · have hr := fit_room hi hwd hfit
        simp only [CBox.room] at hr ⊢
        rcases max_cases 0 ((f.descend i.style top).y - (f.descend i.style top).maxY) with ⟨e, e'⟩ | ⟨e, -⟩ <;> rw [e] at hr <;> linarith [hr.1, hr.2]
      · intro p hp hs
        rw [List.mem_singleton] at hp
        subst hp
        simp only [cArea]
        exact ⟨le_refl _, by linarith⟩
    · split at h
      · cases h
      · simp only [Except.ok.injEq, Prod.mk.injEq] at h
        obtain ⟨rfl, rfl, rfl⟩ := h
        exact Grow.refl _

theorem groupEl_grow (hk : KeepsArea area exec) {f f' : CBox σ} {w w' : COut P B C} {e e' : GEl σ} {top b : Bool} {mh : Option Rat} (hf : FrameIn True m R f) (he : GElIn m e)
    (hmh : ∀ i, e = .image i → mh = none) (hw : PartsIn area True R w.parts) (h : f.groupEl exec w e true top mh = .ok (b, e', f', w')) :
    Grow area exec R.bottom f.y w.parts f'.y w'.parts := by
  unfold CBox.groupEl at h
  cases e with
  | leaf c st =>
    simp only at h
    split at h
    · cases h
    · rename_i r f1 w1 h1
      simp only [Except.ok.injEq, Prod.mk.injEq] at h
      obtain ⟨-, rfl, rfl, rfl⟩ := h
      exact leaf_grow hk he.1 hf h1
  | image i =>
    simp only at h
    have hi := he.1
    have hi' : ImgIn m { i with style := { i.style with minHeight := mh <|> i.style.minHeight, shrink := true } } := by
      refine ⟨hi.1, hi.2.1, hi.2.2.1, hi.2.2.2.1, fun q hq => ?_⟩
      rw [hmh i rfl] at hq
      exact hi.2.2.2.2 q (by simpa using hq)
    split at h
    · cases h
    · rename_i f1 w1 h1
      simp only [Except.ok.injEq, Prod.mk.injEq] at h
      obtain ⟨-, rfl, rfl, rfl⟩ := h
      exact image_grow hf hi' hw h1
    · rename_i i' f1 w1 h1
      simp only [Except.ok.injEq, Prod.mk.injEq] at h
      obtain ⟨-, rfl, rfl, rfl⟩ := h
      exact image_grow hf hi' hw h1

theorem groupPut_grow (hk : KeepsArea area exec) (ratio : Rat) (l : List (GEl σ)) {w w' : COut P B C} {top : Bool} {f f' : CBox σ} {l' : List (GEl σ)}
    (hf : FrameIn True m R f) (hl : ∀ e ∈ l, GElIn m e) (hw : PartsIn area True R w.parts) (h : CBox.groupPut exec ratio top l f w = .ok (l', f', w')) :
    Grow area exec R.bottom f.y w.parts f'.y w'.parts := by
  induction l generalizing top f l' f' w w' with
  | nil =>
    simp only [CBox.groupPut, Except.ok.injEq, Prod.mk.injEq] at h
    obtain ⟨rfl, rfl, rfl⟩ := h
    exact .refl _
  | cons e l ih =>
    simp only [CBox.groupPut] at h
    cases h1 : f.groupEl exec w e true top (e.minHeight.map (· * ratio)) with
    | error e => rw [h1] at h; cases h
    | ok q =>
      obtain ⟨c, e1, f1, w1⟩ := q
      rw [h1] at h
      have hmh : ∀ i, e = .image i → e.minHeight.map (· * ratio) = none := by
        rintro i rfl
        have := (hl (.image i) (by simp)).2
        simp [GEl.minHeight, this]
      have g1 := groupEl_grow hk hf (hl e (by simp)) hmh hw h1
      obtain ⟨k1, k2, -⟩ := groupEl_in (keeps_in hk) hf (hl e (by simp)) hmh hw h1
      simp only at h
      cases h2 : CBox.groupPut exec ratio true l f1 w1 with
      | error e => rw [h2] at h; cases h
      | ok q =>
        obtain ⟨l2, f2, w2⟩ := q
        rw [h2] at h
        simp only [Except.ok.injEq, Prod.mk.injEq] at h
        obtain ⟨rfl, rfl, rfl⟩ := h
        exact g1.trans (ih (k1.frameIn hf) (fun e he => hl e (by simp [he])) k2 h2)

theorem group_grow (hk : KeepsArea area exec) {f f' : CBox σ} {w w' : COut P B C} (hw : PartsIn area True R w.parts) {l l' : List (GEl σ)} {t t' : Nat} {st : CStyle} {b : Bool}
    (hf : FrameIn True m R f) (hst : 0 ≤ st.top) (hl : ∀ e ∈ l, GElIn m e) (h : f.group exec w l t st = .ok (b, l', t', f', w')) :
    Grow area exec R.bottom f.y w.parts f'.y w'.parts := by
  unfold CBox.group at h
  have h0 : FlowIn f (if f.starting then f else { f with y := f.y - st.top }) := by
    split
    · exact ⟨BoxFrame.refl _, le_refl _, hf.last⟩
    · exact ⟨⟨rfl, rfl, rfl, rfl, rfl, rfl, rfl, rfl, rfl, rfl, rfl, rfl, rfl, rfl, rfl, rfl, rfl, rfl, rfl, rfl, rfl, rfl⟩, by simpa using hst, hf.last⟩
  have hy : ∀ (k : CBox σ), FlowIn f k → FlowIn f { k with y := f.y } := fun k hk =>
    ⟨hk.frame.trans ⟨rfl, rfl, rfl, rfl, rfl, rfl, rfl, rfl, rfl, rfl, rfl, rfl, rfl, rfl, rfl, rfl, rfl, rfl, rfl, rfl, rfl, rfl⟩, le_refl _, hk.last⟩
  cases ht : CBox.groupTry exec w false l (if f.starting then f else { f with y := f.y - st.top }) with
  | error e => rw [ht] at h; cases h
  | ok q =>
    obtain ⟨c, l1, f1⟩ := q
    rw [ht] at h
    obtain ⟨k1, k2⟩ := groupTry_in (keeps_in hk) hw l (h0.frameIn hf) hl ht
    have k1' := hy f1 (h0.trans k1)
    cases c with
    | false =>
      simp only at h
      split at h
      · cases h
      · simp only [Except.ok.injEq, Prod.mk.injEq] at h
        obtain ⟨-, rfl, -, rfl, rfl⟩ := h
        exact .refl _
    | true =>
      simp only at h
      split at h
      · cases h
      · split at h
        · cases h
        · rename_i l2 f2 w2 h2
          simp only [Except.ok.injEq, Prod.mk.injEq] at h
          obtain ⟨-, rfl, -, rfl, rfl⟩ := h
          have := groupPut_grow hk _ l1 (k1'.frameIn hf) k2 hw h2
          exact this

theorem process_grow (hk : KeepsArea area exec) {f f' : CBox σ} {w w' : COut P B C} {e e' : CEl σ} {a : CAns σ} {W : Rat} (hf : FrameIn True m R f) (he : ElIn True m W e)
    (hw : PartsIn area True R w.parts) (h : f.process exec w e = .ok (a, e', f', w')) : Grow area exec R.bottom f.y w.parts f'.y w'.parts := by
  unfold CBox.process at h
  cases he with
  | @leaf _ c st hst =>
    simp only at h
    split at h
    · cases h
    · rename_i f1 w1 h1
      simp only [Except.ok.injEq, Prod.mk.injEq] at h
      obtain ⟨rfl, rfl, rfl, rfl⟩ := h
      exact leaf_grow hk hst.1 hf h1
    · rename_i c' f1 w1 h1
      simp only [Except.ok.injEq, Prod.mk.injEq] at h
      obtain ⟨rfl, rfl, rfl, rfl⟩ := h
      exact leaf_grow hk hst.1 hf h1
  | @image _ i hi =>
    simp only at h
    split at h
    · cases h
    · rename_i f1 w1 h1
      simp only [Except.ok.injEq, Prod.mk.injEq] at h
      obtain ⟨rfl, rfl, rfl, rfl⟩ := h
      exact image_grow hf hi hw h1
    · rename_i i' f1 w1 h1
      simp only [Except.ok.injEq, Prod.mk.injEq] at h
      obtain ⟨rfl, rfl, rfl, rfl⟩ := h
      exact image_grow hf hi hw h1
  | @group _ l t st hst hl =>
    simp only at h
    split at h
    · cases h
    · rename_i l1 t1 f1 w1 h1
      simp only [Except.ok.injEq, Prod.mk.injEq] at h
      obtain ⟨rfl, rfl, rfl, rfl⟩ := h
      exact group_grow hk hw hf hst hl h1
    · rename_i l1 t1 f1 w1 h1
      simp only [Except.ok.injEq, Prod.mk.injEq] at h
      obtain ⟨rfl, rfl, rfl, rfl⟩ := h
      exact group_grow hk hw hf hst hl h1
  | child => cases h

theorem addDelayed_grow (hk : KeepsArea area exec) (n k : Nat) {f f' : CBox σ} {w w' : COut P B C} {act : CAct} (hf : FrameIn True m R f) (hw : PartsIn area True R w.parts)
    (h : f.addDelayed exec n k w = .ok (act, f', w')) : act ≠ .partialNext ∧ f'.minY = f.minY ∧ Grow area exec R.bottom f.y w.parts f'.y w'.parts := by
  induction n generalizing k f w with
  | zero => cases h
  | succ n ih =>
    rw [CBox.addDelayed] at h
    cases h1 : f.delayed[k]? with
    | none =>
      rw [h1] at h
      simp only [Except.ok.injEq, Prod.mk.injEq] at h
      obtain ⟨rfl, rfl, rfl⟩ := h
      exact ⟨by split <;> simp, rfl, .refl _⟩
    | some e =>
      rw [h1] at h
      simp only at h
      cases h2 : f.process exec w e with
      | error e => rw [h2] at h; cases h
      | ok q =>
        obtain ⟨a, e', f1, w1⟩ := q
        rw [h2] at h
        simp only at h
        have he := hf.delayed e (List.mem_of_getElem? h1) 0
        obtain ⟨k1, k2, k3, k4⟩ := process_in (keeps_in hk) hf he hw h2
        have hg := process_grow hk hf he hw h2
        have hf1 := k1.frameIn hf
        have hf2 : FrameIn True m R { f1 with delayed := replaceAt f1.delayed k a.delayed } :=
          { hf1 with delayed := replaceAt_mem hf1.delayed k4 }
        by_cases hn : a.next = true
        · rw [if_pos hn] at h
          simp only [Except.ok.injEq, Prod.mk.injEq] at h
          obtain ⟨rfl, rfl, rfl⟩ := h
          exact ⟨by simp, k1.frame.minY, hg⟩
        · rw [if_neg hn] at h
          obtain ⟨j0, j1, j2⟩ := ih _ hf2 k2 h
          exact ⟨j0, j1.trans k1.frame.minY, hg.trans j2⟩

/-- boxes at the same place -/
def SameY (f f' : CBox σ) : Prop := f'.minY = f.minY ∧ f'.y = f.y

abbrev SameYs (a b : List (CBox σ)) : Prop := List.Forall₂ SameY a b

theorem ys_refl (a : List (CBox σ)) : SameYs a a := by
  induction a with
  | nil => exact .nil
  | cons f a ih => exact .cons ⟨rfl, rfl⟩ ih

theorem ys_trans {a b c : List (CBox σ)} (h : SameYs a b) (h' : SameYs b c) : SameYs a c := by
  induction h generalizing c with
  | nil => exact h'
  | cons h1 _ ih => cases h' with
    | cons k1 k2 => exact .cons ⟨k1.1.trans h1.1, k1.2.trans h1.2⟩ (ih k2)

theorem nextSection_ys (parts : Nat) (stk : List (CBox σ)) (mem : Option (List (CMem σ))) (hs : StackIn True m R stk) :
    SameYs stk (nextSection parts mem stk).2 ∧ (nextSection parts mem stk).1 = .interrupt := by
  induction stk generalizing mem with
  | nil => exact ⟨.nil, rfl⟩
  | cons f anc ih =>
    have hf := hs.head
    obtain ⟨h1, -, h2, h3⟩ := hf.floor trivial
    have hcol : f.column + 1 = f.cols := by have := hf.column; omega
    simp only [nextSection, hcol, h3, if_true, Bool.false_eq_true, if_false]
    split
    · exact ⟨.cons ⟨rfl, rfl⟩ .nil, rfl⟩
    · obtain ⟨i1, i2⟩ := ih (some (mem.getD [] ++ [⟨f.index, f.delayed⟩])) hs.tail
      split
      · rename_i x y anc' heq
        rw [heq] at i2
        cases i2
      · rename_i r anc' _ heq
        rw [heq] at i1 i2
        exact ⟨.cons ⟨rfl, rfl⟩ i1, i2⟩

theorem answerAct_ys (a : CAct) {stk : List (CBox σ)} {w : COut P B C} (hs : StackIn True m R stk) :
    SameYs stk (answerAct a stk w).2.1 ∧ (answerAct a stk w).2.2 = w ∧ ((answerAct a stk w).1 = .partialNext → a = .partialNext) := by
  have hb : ∀ (f : CBox σ) anc, StackIn True m R (f :: anc) → breakAct f anc w = (.brk, f :: anc, w) := by
    intro f anc h
    obtain ⟨-, -, h2, h3⟩ := h.head.floor trivial
    simp [breakAct, h2, h3]
  unfold answerAct
  cases stk with
  | nil => exact ⟨.nil, rfl, by simp⟩
  | cons f anc =>
    cases a with
    | brk => simp only; rw [hb f anc hs]; exact ⟨ys_refl _, rfl, by simp⟩
    | next =>
      have h := nextSection_ys w.parts.length (f :: anc) none hs
      simp only
      split
      · rename_i g anc' heq
        rw [heq] at h
        cases h.2
      · rename_i stk' heq
        rw [heq] at h
        exact ⟨h.1, rfl, by simp⟩
      · rename_i stk' heq
        rw [heq] at h
        cases h.2
      · rename_i r stk' _ _ _ heq
        rw [heq] at h
        exact ⟨h.1, rfl, by simp⟩
    | interrupt => exact ⟨ys_refl _, rfl, by simp⟩
    | partialNext => exact ⟨ys_refl _, rfl, fun _ => rfl⟩
    | cont => exact ⟨ys_refl _, rfl, by simp⟩
    | retry => exact ⟨ys_refl _, rfl, by simp⟩

/-- what a run does to the boxes and the parts -/
def RunGrow (floor : Rat) (area : P → Area) (exec : σ → Rat → Rat → Rat → Rat → Except PyErr (CellOut σ P B C)) (stk stk' : List (CBox σ)) (w w' : COut P B C) : Prop :=
  ∃ f anc f' anc', stk = f :: anc ∧ stk' = f' :: anc' ∧ f'.minY = f.minY ∧ SameYs anc anc' ∧ Grow area exec floor f.y w.parts f'.y w'.parts

theorem RunGrow.trans {a b c : List (CBox σ)} {u v w : COut P B C} (h : RunGrow R.bottom area exec a b u v) (h' : RunGrow R.bottom area exec b c v w) : RunGrow R.bottom area exec a c u w := by
  obtain ⟨f, anc, f', anc', rfl, rfl, h1, h2, h3⟩ := h
  obtain ⟨g, bnc, g', bnc', e, rfl, k1, k2, k3⟩ := h'
  cases e
  exact ⟨_, _, _, _, rfl, rfl, k1.trans h1, ys_trans h2 k2, h3.trans k3⟩

theorem RunGrow.of_ys {f : CBox σ} {anc b : List (CBox σ)} {u : COut P B C} (h : SameYs (f :: anc) b) : RunGrow R.bottom area exec (f :: anc) b u u := by
  cases h with
  | cons h1 h2 => exact ⟨_, _, _, _, rfl, rfl, h1.1, h2, by rw [h1.2]; exact .refl _⟩

theorem RunGrow.ne_nil {a b : List (CBox σ)} {u v : COut P B C} (h : RunGrow R.bottom area exec a b u v) : ∃ f anc, b = f :: anc := by
  obtain ⟨f, anc, f', anc', rfl, rfl, -⟩ := h
  exact ⟨_, _, rfl⟩

theorem newChild_ys {f : CBox σ} {cols : Nat} {gap : Option Rat} {els : List (CEl σ)} {st : CStyle} (last : Bool) (parts : Nat) (hst : 0 ≤ st.top) (hl : 0 ≤ f.lastBottom) :
    (f.newChild cols gap els st last parts).1.minY = f.minY ∧ (f.newChild cols gap els st last parts).1.y ≤ f.y ∧
      (f.newChild cols gap els st last parts).2.minY = (f.newChild cols gap els st last parts).1.y ∧
      (f.newChild cols gap els st last parts).2.y = (f.newChild cols gap els st last parts).1.y := by
  have hd := descend_in f (top := true) hst hl
  unfold CBox.newChild
  simp only
  split
  · exact ⟨hd.frame.minY, hd.y, rfl, rfl⟩
  · split
    · exact ⟨hd.frame.minY, hd.y, rfl, rfl⟩
    · exact ⟨hd.frame.minY, hd.y, rfl, rfl⟩

theorem run_grow (hk : KeepsArea area exec) (n : Nat) :
    (∀ (stk stk' : List (CBox σ)) (w w' : COut P B C) (a : CAct), StackIn True m R stk → PartsIn area True R w.parts → contentRun exec n stk w = .ok (a, stk', w') →
      a ≠ .partialNext ∧ RunGrow R.bottom area exec stk stk' w w') ∧
    (∀ (stk stk' : List (CBox σ)) (w w' : COut P B C) (a : CAct), StackIn True m R stk → PartsIn area True R w.parts → contentElements exec n stk w = .ok (a, stk', w') →
      a ≠ .partialNext ∧ RunGrow R.bottom area exec stk stk' w w') := by
  induction n with
  | zero =>
    constructor
    · intro stk stk' w w' a _ _ h
      rw [contentRun] at h; cases h
    · intro stk stk' w w' a _ _ h
      rw [contentElements] at h; cases h
  | succ n ih =>
    obtain ⟨ih1, ih2⟩ := ih
    have hki := keeps_in hk
    constructor
    · intro stk stk' w w' a hs hw h
      cases stk with
      | nil => simp [contentRun] at h
      | cons f anc =>
        rw [contentRun] at h
        cases hd : f.addDelayed exec n 0 w with
        | error e => rw [hd] at h; cases h
        | ok q =>
          obtain ⟨a1, f1, w1⟩ := q
          rw [hd] at h
          obtain ⟨k1, k2, ks⟩ := addDelayed_in hki n 0 hs.head hw hd
          obtain ⟨na, g1, g2⟩ := addDelayed_grow hk n 0 hs.head hw hd
          have hg : RunGrow R.bottom area exec (f :: anc) (f1 :: anc) w w1 := ⟨_, _, _, _, rfl, rfl, g1, ys_refl _, g2⟩
          have hs1 := hs.replace k1 ks
          have k3 := answerAct_in a1 hs1 k2
          have k3' := answerAct_ys a1 (w := w1) hs1
          simp only at h
          generalize answerAct a1 (f1 :: anc) w1 = r1 at h k3 k3'
          obtain ⟨a2, stk2, w2⟩ := r1
          obtain ⟨k3, k4, -⟩ := k3
          obtain ⟨y1, y2, y3⟩ := k3'
          simp only at k3 k4 y1 y2 y3
          subst y2
          replace hg := hg.trans (.of_ys y1)
          split at h
          · rename_i heq
            cases heq
            exact ⟨(ih1 _ _ _ _ _ k3 k4 h).1, hg.trans (ih1 _ _ _ _ _ k3 k4 h).2⟩
          · rename_i heq
            cases heq
            cases h
            exact ⟨by simp, hg⟩
          · rename_i heq
            cases heq
            cases h
            exact ⟨by simp, hg⟩
          · rename_i heq
            cases heq
            exact absurd (y3 rfl) na
          · rename_i heq
            cases heq
            cases he : contentElements exec n stk2 w2 with
            | error e => rw [he] at h; cases h
            | ok q =>
              obtain ⟨a3, stk3, w3⟩ := q
              rw [he] at h
              obtain ⟨j5, j6, j7⟩ := (run_in hki n).2 _ _ _ _ _ k3 k4 he
              obtain ⟨na3, hg2⟩ := ih2 _ _ _ _ _ k3 k4 he
              replace hg2 := hg.trans hg2
              obtain ⟨f3, anc3, rfl⟩ := hg2.ne_nil
              have k7 := answerAct_in a3 j5 j6
              have k7' := answerAct_ys a3 (w := w3) j5
              simp only at h
              generalize answerAct a3 (f3 :: anc3) w3 = r3 at h k7 k7'
              obtain ⟨a4, stk4, w4⟩ := r3
              obtain ⟨k7, k8, k9⟩ := k7
              obtain ⟨z1, z2, z3⟩ := k7'
              simp only at k7 k8 k9 z1 z2 z3
              subst z2
              replace hg2 := hg2.trans (.of_ys z1)
              split at h
              · rename_i heq
                cases heq
                exact ⟨(ih1 _ _ _ _ _ k7 k8 h).1, hg2.trans (ih1 _ _ _ _ _ k7 k8 h).2⟩
              · rename_i heq
                cases heq
                cases h
                exact ⟨by simp, hg2⟩
              · rename_i heq
                cases heq
                cases h
                exact ⟨by simp, hg2⟩
              · rename_i heq
                cases heq
                exact absurd (z3 rfl) na3
              · rename_i heq
                cases heq
                cases h
                exact ⟨by simp, hg2⟩
              · rename_i f5 anc5 w5 _ _ _ _ heq
                obtain ⟨rfl, rfl⟩ : stk4 = f5 :: anc5 ∧ w4 = w5 := by
                  simp only [Prod.mk.injEq] at heq
                  exact ⟨heq.2.1, heq.2.2⟩
                obtain ⟨o1, -, o2, o3⟩ := k7.head.floor trivial
                split at h
                · exact ⟨(ih1 _ _ _ _ _ k7 k8 h).1, hg2.trans (ih1 _ _ _ _ _ k7 k8 h).2⟩
                · split at h
                  · rename_i hcond
                    omega
                  · rw [o3] at h
                    simp only [Bool.false_eq_true, if_false] at h
                    cases h
                    exact ⟨by simp, hg2⟩
    · intro stk stk' w w' a hs hw h
      cases stk with
      | nil => simp [contentElements] at h
      | cons f anc =>
        rw [contentElements] at h
        have hf := hs.head
        split at h
        · cases h
          exact ⟨by simp, .of_ys (ys_refl _)⟩
        · rename_i cols gap els st he
          have hels := hf.elements _ (List.mem_of_getElem? he)
          split at h
          · cases h
          · obtain ⟨k1, k2, k3, k4, k5⟩ := newChild_in hf (decide (f.index + 1 = f.elements.length)) w.parts.length hels
            have hstk : StackIn True m R ((f.newChild cols gap els st (decide (f.index + 1 = f.elements.length)) w.parts.length).2 ::
                (f.newChild cols gap els st (decide (f.index + 1 = f.elements.length)) w.parts.length).1 :: anc) :=
              .cons k2 (fun p hp => by cases hp; rw [k4, k3.width]) (hs.replace k1 k3)
            simp only at h
            split at h
            · cases h
            · rename_i a1 c1 f1 anc1 w1 hr
              obtain ⟨j1, j2, j3⟩ := (run_in hki n).1 _ _ _ _ _ hstk hw hr
              obtain ⟨na, g, bnc, g', bnc', eg, eg', g1, g2, g3⟩ := ih1 _ _ _ _ _ hstk hw hr
              cases eg
              cases eg'
              have hst : 0 ≤ st.top ∧ 0 ≤ st.bottom := by cases hels with | child q1 => exact q1
              obtain ⟨n1, n2, n3, n4⟩ := newChild_ys (cols := cols) (gap := gap) (els := els) (decide (f.index + 1 = f.elements.length)) w.parts.length hst.1 hf.last
              have hc := j1.head
              have hf1 := j1.tail.head
              rw [n4] at g3
              rw [n3] at g1
              cases g2 with
              | cons g4 g5 =>
              cases j3 with
              | cons s1 s2 => cases s2 with
                | cons s2 s3 =>
                have w1' : c1.colWidth = columnWidth cols gap f1.colWidth := by rw [s1.width, k5, s2.width, k3.width]
                have hch : ElIn True m f1.colWidth (.child cols gap c1.elements st) := by
                  have e1 : f1.colWidth = f.colWidth := by rw [s2.width, k3.width]
                  cases hels with
                  | child q1 q2 q3 q4 q5 q6 =>
                    refine .child q1 q2 q3 q4 (by rw [e1]; exact q5) ?_
                    rw [← w1']
                    exact hc.elements
                have hcc : c1.cols = 1 := (hc.floor trivial).1
                have hf2 : FrameIn True m R { f1 with elements := f1.elements.set f1.index (.child cols gap c1.elements st) } :=
                  { hf1 with elements := set_mem hf1.elements hch }
                have sh := k3.trans s2
                generalize (f.newChild cols gap els st (decide (f.index + 1 = f.elements.length)) w.parts.length).1 = p1 at n1 n2 n3 n4 g1 g3 g4
                have hf3 : ∀ f3 : CBox σ, f3 = (if a1 = .partialNext then { f1 with elements := f1.elements.set f1.index (.child cols gap c1.elements st) }
                    else CBox.childTook { f1 with elements := f1.elements.set f1.index (.child cols gap c1.elements st) } c1 f.y st) →
                    FrameIn True m R f3 ∧ SameShape f f3 ∧ f3.minY = f.minY ∧ Grow area exec R.bottom f.y w.parts f3.y w1.parts := by
                  rintro f3 rfl
                  split
                  · contradiction
                  · unfold CBox.childTook CBox.took
                    simp only [hcc, gt_iff_lt, lt_irrefl, if_false]
                    split
                    · rename_i hh
                      have hy := hf2.y
                      refine ⟨{ hf2 with y := ?_, last := hst.2 }, ⟨sh.cols, sh.gap, sh.width, sh.colsGap⟩, g4.1.trans n1, ?_⟩
                      · simp only at hy ⊢
                        linarith
                      · simp only
                        rw [g4.2, g1, show p1.y - (p1.y - c1.y) = c1.y by ring]
                        exact g3.higher n2 (by rw [g1] at hh; linarith)
                    · rename_i hh
                      refine ⟨{ hf2 with y := hf.y }, ⟨sh.cols, sh.gap, sh.width, sh.colsGap⟩, g4.1.trans n1, ?_⟩
                      have e : c1.y = p1.y := le_antisymm g3.1 (by rw [← g1]; linarith)
                      rw [e] at g3
                      exact g3.lift
                generalize (if a1 = .partialNext then { f1 with elements := f1.elements.set f1.index (.child cols gap c1.elements st) }
                    else CBox.childTook { f1 with elements := f1.elements.set f1.index (.child cols gap c1.elements st) } c1 f.y st) = f3 at h hf3
                obtain ⟨hf3, hsh, h4, h5⟩ := hf3 f3 rfl
                have hst3 : ∀ g : CBox σ, FrameIn True m R g → SameShape f g → StackIn True m R (g :: anc1) := by
                  intro g hg hsg
                  refine .cons hg (fun p hp => ?_) j1.tail.tail
                  rw [← j1.tail.link p hp, hsg.total, ← (k3.trans s2).total]
                split at h
                · cases h
                  exact ⟨na, _, _, _, _, rfl, rfl, h4, g5, h5⟩
                · have hsh' : SameShape f { f3 with starting := false, index := f3.index + 1 } := ⟨hsh.cols, hsh.gap, hsh.width, hsh.colsGap⟩
                  have i1 := ih2 _ _ _ _ _ (hst3 { f3 with starting := false, index := f3.index + 1 } { hf3 with } hsh') j2 h
                  refine ⟨i1.1, RunGrow.trans ⟨_, _, _, _, rfl, rfl, ?_, g5, ?_⟩ i1.2⟩
                  · exact h4
                  · exact h5
            · rename_i a1 stk1 w1 hne hr
              obtain ⟨j1, j2, j3⟩ := (run_in hki n).1 _ _ _ _ _ hstk hw hr
              cases j3 with
              | cons s1 s2 => cases s2 with
                | cons s2 s3 => exact (hne _ _ _ rfl).elim
        · rename_i e _ he
          have hse := hf.elements _ (List.mem_of_getElem? he)
          split at h
          · cases h
          · rename_i a1 e1 f1 w1 hp
            obtain ⟨j1, j2, j3, j4⟩ := process_in hki hf hse hw hp
            have hgr := process_grow hk hf hse hw hp
            have hf1 := j1.frameIn hf
            have hf2 : FrameIn True m R { f1 with elements := f1.elements.set f1.index e1, index := f1.index + 1, delayed := f1.delayed ++ a1.delayed.toList } := by
              refine { hf1 with elements := set_mem hf1.elements (j3 _), delayed := ?_ }
              intro d hd
              rcases List.mem_append.1 hd with hd | hd
              · exact hf1.delayed d hd
              · exact j4 d hd
            have hsh : SameShape f { f1 with elements := f1.elements.set f1.index e1, index := f1.index + 1, delayed := f1.delayed ++ a1.delayed.toList } :=
              ⟨j1.shape.cols, j1.shape.gap, j1.shape.width, j1.shape.colsGap⟩
            have hg : RunGrow R.bottom area exec (f :: anc) ({ f1 with elements := f1.elements.set f1.index e1, index := f1.index + 1, delayed := f1.delayed ++ a1.delayed.toList } :: anc) w w1 :=
              ⟨_, _, _, _, rfl, rfl, j1.frame.minY, ys_refl _, hgr⟩
            simp only at h
            split at h
            · cases h
              exact ⟨by simp, hg⟩
            · have i1 := ih2 _ _ _ _ _ (hs.replace hf2 hsh) j2 h
              exact ⟨i1.1, hg.trans i1.2⟩
end

/-- C86: what a content box of one column (as are the boxes in it) shows in a rectangle, after any number of rectangles before, is made of blocks, each the parts of
one element or an image, and each below the ones before. The height of the box covers all of them, and is not more than that of the rectangle. -/
theorem C86_piled (area : P → Area) (exec : σ → Rat → Rat → Rat → Rat → Except PyErr (CellOut σ P B C)) (hexec : KeepsArea area exec) (m W : Rat) (hm : 0 ≤ m)
    (cols : Nat) (gap : Option Rat) (els : List (CEl σ)) (hbox : ElIn True m W (.child cols gap els ⟨0, 0, 0, 0, none, false, .flow⟩)) (fuel : Nat)
    (before : List (Rat × Rat × Rat × Rat)) (hbefore : ∀ r ∈ before, m ≤ r.2.2.1) (ps : List (CPart P)) (s s' : CContent σ P B C)
    (hruns : (CContent.new cols gap els).runs exec fuel before = .ok (ps, s)) (x y h : Rat) (hrun : s.run exec fuel x y W h = .ok s') :
    (∃ blocks : List (List (CPart P)), s'.out.parts = blocks.flatten ∧ (∀ b ∈ blocks, FromOne exec b) ∧ blocks.Pairwise (BlockBelow area)) ∧
      (∀ p ∈ s'.out.parts, (cArea area p).Seen → (cArea area p).Within ⟨x, x + W, y, y - s'.currentHeight⟩) ∧
      0 ≤ s'.currentHeight ∧ (0 < s'.currentHeight → s'.currentHeight ≤ h) := by
  have hwithin := C85_rectangle area exec (keeps_in hexec) m W hm cols gap els hbox fuel before hbefore ps s s' hruns x y h hrun
  cases hbox with
  | child _ hc hg ho hw he =>
  have h0 : ContentIn True m W (CContent.new cols gap els : CContent σ P B C) := ⟨hc, ho, hg, hm, hw, he, by intro f hf; cases hf⟩
  have hs := content_runs_one (keeps_in hexec) fuel before hbefore _ _ _ _ h0 hruns
  unfold CContent.run at hrun
  split at hrun
  · cases hrun
  · simp only at hrun
    have hbox : FrameIn True m ⟨x, x + W, y, y - h⟩ ((s.box.getD (CBox.blank s.cols s.gap s.elements true)).setup x W y (y - h) 0) := by
      cases hb : s.box with
      | none => exact setup_in _ rfl rfl hs.cols hs.one_ hs.gap hs.least hs.width hs.elements (by intro e h; cases h) (by intro e h; cases h) (by intro l hl; cases hl)
      | some f =>
        obtain ⟨b1, b2, b3, b4, b5, b6⟩ := hs.box f hb
        exact setup_in _ b1 b2 hs.cols hs.one_ hs.gap hs.least hs.width b3 b4 b5 b6
    have hy : ((s.box.getD (CBox.blank s.cols s.gap s.elements true)).setup x W y (y - h) 0).minY = y ∧
        ((s.box.getD (CBox.blank s.cols s.gap s.elements true)).setup x W y (y - h) 0).y = y := ⟨rfl, rfl⟩
    generalize (s.box.getD (CBox.blank s.cols s.gap s.elements true)).setup x W y (y - h) 0 = f0 at hrun hbox hy
    split at hrun
    · cases hrun
    · rename_i a f1 l1 w1 h1
      cases hrun
      have hstk : StackIn True m ⟨x, x + W, y, y - h⟩ [f0] := .cons hbox (by intro p hp; cases hp) .nil
      obtain ⟨k1, -, -⟩ := (run_in (keeps_in hexec) fuel).1 _ _ _ _ _ hstk (by intro p hp; cases hp) h1
      obtain ⟨-, g, bnc, g', bnc', e, e', g1, -, g3, g4, blocks, g5, g6, g7, g8⟩ := (run_grow hexec fuel).1 _ _ _ _ _ hstk (by intro p hp; cases hp) h1
      cases e
      cases e'
      have hc1 : f1.cols = 1 := (k1.head.floor trivial).1
      simp only [hc1, gt_iff_lt, lt_irrefl, if_false, g1, hy.1]
      rw [hy.2] at g3 g4 g7
      refine ⟨⟨blocks, by simpa using g5, g6, g8⟩, ?_, by linarith, ?_⟩
      · intro p hp hs'
        obtain ⟨w1', w2, w3, -⟩ := hwithin p hp hs'
        simp only at g5 hp
        rw [g5] at hp
        obtain ⟨b, hb, hp⟩ := List.mem_flatten.1 hp
        refine ⟨w1', w2, w3, ?_⟩
        have := (g7 b hb p hp hs').1
        simp only
        linarith
      · intro hpos
        rcases g4 with g4 | g4
        · rw [g4] at hpos
          linarith
        · simp only at g4
          linarith
    · cases hrun

/-! ### a box in a box -/

/-- an image, a group and blocks -/
def piledEls : List (CEl Rat) :=
  [.leaf 10 ⟨0, 5, 0, 0, none, false, .flow⟩, .child 1 none [.leaf 20 ⟨0, 5, 2, 3, none, false, .flow⟩, .image ⟨1, 100, 50, 0, ⟨0, 5, 4, 4, some 10, false, .flow⟩⟩]
    ⟨3, 5, 0, 0, none, false, .flow⟩, .group [.leaf 15 ⟨0, 5, 0, 0, none, false, .flow⟩, .image ⟨2, 40, 10, 0, ⟨2, 1, 4, 4, none, false, .flow⟩⟩] 0 ⟨0, 5, 0, 0, none, false, .flow⟩]

theorem piledEls_in : ElIn True 40 108 (.child 1 none piledEls ⟨0, 0, 0, 0, none, false, .flow⟩) := by
  have hw : columnWidth 1 none 108 = 108 := by norm_num [columnWidth]
  have tidy : ∀ (a b c d : Rat) (q : Option Rat), 0 ≤ a → 0 ≤ b → 0 ≤ c → 0 ≤ d → StyleTidy ⟨a, b, c, d, q, false, .flow⟩ := fun a b c d q h1 h2 h3 h4 => ⟨h1, h2, h3, h4⟩
  refine .child ⟨le_refl _, le_refl _⟩ (by norm_num) (by intro g hg; cases hg) (fun _ => rfl) (by rw [hw]; norm_num) ?_
  rw [hw]
  intro e he
  simp only [piledEls, List.mem_cons, List.not_mem_nil, or_false] at he
  rcases he with rfl | rfl | rfl
  · exact .leaf (tidy _ _ _ _ _ (by norm_num) (by norm_num) (by norm_num) (by norm_num))
  · refine .child ⟨by norm_num, by norm_num⟩ (by norm_num) (by intro g hg; cases hg) (fun _ => rfl) (by rw [hw]; norm_num) ?_
    rw [hw]
    intro e he
    simp only [List.mem_cons, List.not_mem_nil, or_false] at he
    rcases he with rfl | rfl
    · exact .leaf (tidy _ _ _ _ _ (by norm_num) (by norm_num) (by norm_num) (by norm_num))
    · exact .image ⟨tidy _ _ _ _ _ (by norm_num) (by norm_num) (by norm_num) (by norm_num), by norm_num, by norm_num, by norm_num, by intro q hq; cases hq; norm_num⟩
  · refine .group (le_refl _) ?_
    intro e he
    simp only [List.mem_cons, List.not_mem_nil, or_false] at he
    rcases he with rfl | rfl
    · exact tidy _ _ _ _ _ (by norm_num) (by norm_num) (by norm_num) (by norm_num)
    · exact ⟨⟨tidy _ _ _ _ _ (by norm_num) (by norm_num) (by norm_num) (by norm_num), by norm_num, by norm_num, by norm_num, by intro q hq; cases hq⟩, rfl⟩

/-- one below the other -/
example : blockBox 1 piledEls 108 150 = some [(0, 108, 150, 140), (2, 105, 132, 112), (4, 104, 107, 57), (0, 108, 56, 41), (4, 104, 34, 9)] := by decide +kernel

example (s : CContent Rat Area Nat Nat) (hrun : (CContent.new 1 none piledEls).run blockExec 400 0 150 108 150 = .ok s) :
    ∃ blocks : List (List (CPart Area)), s.out.parts = blocks.flatten ∧ (∀ b ∈ blocks, FromOne blockExec b) ∧ blocks.Pairwise (BlockBelow id) :=
  (C86_piled id blockExec block_keeps 40 108 (by norm_num) 1 none piledEls piledEls_in 400 [] (by simp) [] _ s rfl 0 150 150 hrun).1

/-- the space above a group is not the margins there: neither its own upper margin, 20, nor the lower margin of the element before, 7, but the lower margin of its own last
element, 3 -/
theorem C86_group_space_false :
    blockBox 1 [.leaf 10 ⟨0, 7, 0, 0, none, false, .flow⟩, .group [.leaf 15 ⟨0, 1, 0, 0, none, false, .flow⟩, .leaf 15 ⟨0, 3, 0, 0, none, false, .flow⟩] 0 ⟨20, 0, 0, 0, none, false, .flow⟩] 100 100 =
      some [(0, 100, 100, 90), (0, 100, 87, 72), (0, 100, 71, 56)] := by decide +kernel

end Verif
