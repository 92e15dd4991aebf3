import Verif.Props.C85_InBox
import Verif.Spec.Shapes
import Mathlib.Tactic.Linarith
/-! The lines and fills of tables in a content box are between its left and right side, and below its top. -/
namespace Verif
open Spec

variable {σ P B C : Type}

theorem Spec.LineFit.mono {pal : Palette B C} {R R' : Area} {l : BLine B} (h : LineFit pal R l) (h1 : R'.left ≤ R.left) (h2 : R.right ≤ R'.right) (h3 : R.top ≤ R'.top) :
    LineFit pal R' l := by
  refine ⟨h.border, h.thick, ?_⟩
  rcases h.place with ⟨a, b, c, d, e⟩ | ⟨a, b, c, d, e⟩
  · exact .inl ⟨a, by linarith, c, by linarith, by linarith⟩
  · exact .inr ⟨a, by linarith, by linarith, by linarith, e⟩

theorem Spec.FillFit.mono {pal : Palette B C} {R R' : Area} {f : TFill C} (h : FillFit pal R f) (h1 : R'.left ≤ R.left) (h2 : R.right ≤ R'.right) (h3 : R.top ≤ R'.top) :
    FillFit pal R' f :=
  ⟨h.color, h.size, le_trans h1 h.left, le_trans h.right h2, le_trans h.top h3⟩

theorem Spec.ShapesFit.mono {pal : Palette B C} {R R' : Area} {ls : List (BLine B)} {fs : List (TFill C)} (h : ShapesFit pal R ls fs) (h1 : R'.left ≤ R.left) (h2 : R.right ≤ R'.right)
    (h3 : R.top ≤ R'.top) : ShapesFit pal R' ls fs :=
  ⟨fun l hl => (h.1 l hl).mono h1 h2 h3, fun f hf => (h.2 f hf).mono h1 h2 h3⟩

theorem Spec.ShapesFit.append {pal : Palette B C} {R : Area} {ls ls' : List (BLine B)} {fs fs' : List (TFill C)} (h : ShapesFit pal R ls fs) (h' : ShapesFit pal R ls' fs') :
    ShapesFit pal R (ls ++ ls') (fs ++ fs') := by
  constructor
  · intro l hl
    rcases List.mem_append.1 hl with hl | hl
    · exact h.1 l hl
    · exact h'.1 l hl
  · intro l hl
    rcases List.mem_append.1 hl with hl | hl
    · exact h.2 l hl
    · exact h'.2 l hl

/-- the lines and fills of a box so far -/
def WorkFit (pal : Palette B C) (R : Area) (w : COut P B C) : Prop := ShapesFit pal R w.lines w.fills

section
variable {exec : σ → Rat → Rat → Rat → Rat → Except PyErr (CellOut σ P B C)} {pal : Palette B C} {one : Prop} {m : Rat} {R : Area}

theorem leaf_shapes (hk : KeepsShapes pal exec) {f f' : CBox σ} {w w' : COut P B C} {c : σ} {st : CStyle} {add top : Bool} {r : Option σ} (hf : FrameIn one m R f) (hst : StyleTidy st)
    (hw : WorkFit pal R w) (h : f.leaf exec w c st add top = .ok (r, f', w')) : FlowIn f f' ∧ WorkFit pal R w' := by
  obtain ⟨o, ho, -, rfl, rfl⟩ := leaf_ok h
  have hd := descend_in f (top := top) hst.1 hf.last
  constructor
  · refine ⟨hd.frame.trans (took_frame _ _ _ _), ?_, ?_⟩ <;> unfold CBox.took <;> split
    · rename_i hh
      simp only
      have := hd.y
      linarith
    · exact le_refl _
    · exact hst.2.1
    · exact hd.last
  · cases add
    · exact hw
    · have hg := hd.frameIn hf
      have hs := hk _ _ _ _ _ _ ho
      generalize f.descend st top = g at hg hs
      obtain ⟨c1, c2⟩ := hg.col
      have hy := hg.y
      obtain ⟨-, -, s1, s2⟩ := hst
      exact ShapesFit.append hw (ShapesFit.mono hs (by simp only [CBox.elX]; linarith) (by simp only [CBox.elX, CBox.elWidth]; linarith) hy)

theorem image_shapes {f f' : CBox σ} {w w' : COut P B C} {i : CImg} {add top : Bool} {r : Option CImg} (hf : FrameIn one m R f) (hi : ImgIn m i)
    (hw : WorkFit pal R w) (h : f.image w i add top = .ok (r, f', w')) :
    FlowIn f f' ∧ WorkFit pal R w' ∧ ∀ i', r = some i' → i'.style = i.style ∧ i'.width = i.width ∧ i'.height = i.height := by
  have hfr := image_frame h
  have hst := hi.1
  have hd := descend_in f (top := top) hst.1 hf.last
  unfold CBox.image at h
  simp only at h
  split at h
  · cases h
  · split at h
    · rename_i x width height hfit
      simp only [Except.ok.injEq, Prod.mk.injEq] at h
      obtain ⟨rfl, rfl, rfl⟩ := h
      have hx : 0 ≤ (f.descend i.style top).elWidth i.style := by
        have h1 := (hd.frameIn hf).width
        have h2 := hi.2.1
        unfold CBox.elWidth
        linarith
      have hh := fit_height hi hx (le_max_left _ _) hfit
      simp only at hh
      refine ⟨⟨hfr, ?_, hst.2.1⟩, ?_, by simp⟩
      · have := hd.y
        simp only
        linarith
      · cases add
        · exact hw
        · exact hw
    · split at h
      · cases h
      · simp only [Except.ok.injEq, Prod.mk.injEq] at h
        obtain ⟨rfl, rfl, rfl⟩ := h
        refine ⟨⟨hfr, le_refl _, hd.last⟩, hw, ?_⟩
        intro i' hi'
        cases hi'
        exact ⟨rfl, rfl, rfl⟩

theorem groupEl_shapes (hk : KeepsShapes pal exec) {f f' : CBox σ} {w w' : COut P B C} {e e' : GEl σ} {add top b : Bool} {mh : Option Rat} (hf : FrameIn one m R f) (he : GElIn m e)
    (hmh : ∀ i, e = .image i → mh = none)
    (hw : WorkFit pal R w) (h : f.groupEl exec w e add top mh = .ok (b, e', f', w')) : FlowIn f f' ∧ WorkFit pal R w' ∧ GElIn m e' := by
  unfold CBox.groupEl at h
  cases e with
  | leaf c st =>
    simp only at h
    split at h
    · cases h
    · rename_i r f1 w1 h1
      simp only [Except.ok.injEq, Prod.mk.injEq] at h
      obtain ⟨-, rfl, rfl, rfl⟩ := h
      obtain ⟨a1, a2⟩ := leaf_shapes hk hf he hw h1
      exact ⟨a1, a2, he⟩
  | image i =>
    simp only at h
    have hi := he.1
    have hi' : ImgIn m { i with style := { i.style with minHeight := mh <|> i.style.minHeight, shrink := true } } := by
      refine ⟨hi.1, hi.2.1, hi.2.2.1, hi.2.2.2.1, fun q hq => ?_⟩
      rw [hmh i rfl] at hq
      exact hi.2.2.2.2 q (by simpa using hq)
    split at h
    · cases h
    · rename_i f1 w1 h1
      simp only [Except.ok.injEq, Prod.mk.injEq] at h
      obtain ⟨-, rfl, rfl, rfl⟩ := h
      obtain ⟨a1, a2, -⟩ := image_shapes hf hi' hw h1
      exact ⟨a1, a2, he⟩
    · rename_i i' f1 w1 h1
      simp only [Except.ok.injEq, Prod.mk.injEq] at h
      obtain ⟨-, rfl, rfl, rfl⟩ := h
      obtain ⟨a1, a2, -⟩ := image_shapes hf hi' hw h1
      exact ⟨a1, a2, he⟩

theorem groupTry_shapes (hk : KeepsShapes pal exec) {w : COut P B C} (hw : WorkFit pal R w) (l : List (GEl σ)) {top b : Bool} {f f' : CBox σ} {l' : List (GEl σ)}
    (hf : FrameIn one m R f) (hl : ∀ e ∈ l, GElIn m e) (h : CBox.groupTry exec w top l f = .ok (b, l', f')) : FlowIn f f' ∧ ∀ e ∈ l', GElIn m e := by
  induction l generalizing top b f l' f' with
  | nil =>
    simp only [CBox.groupTry, Except.ok.injEq, Prod.mk.injEq] at h
    obtain ⟨-, rfl, rfl⟩ := h
    exact ⟨⟨BoxFrame.refl _, le_refl _, hf.last⟩, by simp⟩
  | cons e l ih =>
    simp only [CBox.groupTry] at h
    cases h1 : f.groupEl exec w e false top none with
    | error e => rw [h1] at h; cases h
    | ok q =>
      obtain ⟨c, e1, f1, w1⟩ := q
      rw [h1] at h
      obtain ⟨k1, k2, k3⟩ := groupEl_shapes hk hf (hl e (by simp)) (fun _ _ => rfl) hw h1
      cases c with
      | false =>
        simp only [Except.ok.injEq, Prod.mk.injEq] at h
        obtain ⟨-, rfl, rfl⟩ := h
        refine ⟨k1, ?_⟩
        intro d hd
        rcases List.mem_cons.1 hd with rfl | hd
        · exact k3
        · exact hl d (by simp [hd])
      | true =>
        simp only at h
        cases h2 : CBox.groupTry exec w true l f1 with
        | error e => rw [h2] at h; cases h
        | ok q =>
          obtain ⟨b2, l2, f2⟩ := q
          rw [h2] at h
          simp only [Except.ok.injEq, Prod.mk.injEq] at h
          obtain ⟨-, rfl, rfl⟩ := h
          obtain ⟨j1, j2⟩ := ih (k1.frameIn hf) (fun e he => hl e (by simp [he])) h2
          refine ⟨k1.trans j1, ?_⟩
          intro d hd
          rcases List.mem_cons.1 hd with rfl | hd
          · exact k3
          · exact j2 d hd

theorem groupPut_shapes (hk : KeepsShapes pal exec) (ratio : Rat) (l : List (GEl σ)) {w w' : COut P B C} (hw : WorkFit pal R w) {top : Bool} {f f' : CBox σ} {l' : List (GEl σ)}
    (hf : FrameIn one m R f) (hl : ∀ e ∈ l, GElIn m e) (h : CBox.groupPut exec ratio top l f w = .ok (l', f', w')) :
    FlowIn f f' ∧ (∀ e ∈ l', GElIn m e) ∧ WorkFit pal R w' := by
  induction l generalizing top f l' f' w w' with
  | nil =>
    simp only [CBox.groupPut, Except.ok.injEq, Prod.mk.injEq] at h
    obtain ⟨rfl, rfl, rfl⟩ := h
    exact ⟨⟨BoxFrame.refl _, le_refl _, hf.last⟩, by simp, hw⟩
  | cons e l ih =>
    simp only [CBox.groupPut] at h
    cases h1 : f.groupEl exec w e true top (e.minHeight.map (· * ratio)) with
    | error e => rw [h1] at h; cases h
    | ok q =>
      obtain ⟨c, e1, f1, w1⟩ := q
      rw [h1] at h
      obtain ⟨k1, k2, k3⟩ := groupEl_shapes hk hf (hl e (by simp)) (by
        rintro i rfl
        have := (hl (.image i) (by simp)).2
        simp [GEl.minHeight, this]) hw h1
      simp only at h
      cases h2 : CBox.groupPut exec ratio true l f1 w1 with
      | error e => rw [h2] at h; cases h
      | ok q =>
        obtain ⟨l2, f2, w2⟩ := q
        rw [h2] at h
        simp only [Except.ok.injEq, Prod.mk.injEq] at h
        obtain ⟨rfl, rfl, rfl⟩ := h
        obtain ⟨j1, j2, j3⟩ := ih k2 (k1.frameIn hf) (fun e he => hl e (by simp [he])) h2
        refine ⟨k1.trans j1, ?_, j3⟩
        intro d hd
        rcases List.mem_cons.1 hd with rfl | hd
        · exact k3
        · exact j2 d hd

theorem group_shapes (hk : KeepsShapes pal exec) {f f' : CBox σ} {w w' : COut P B C} (hw : WorkFit pal R w) {l l' : List (GEl σ)} {t t' : Nat} {st : CStyle} {b : Bool}
    (hf : FrameIn one m R f) (hst : 0 ≤ st.top) (hl : ∀ e ∈ l, GElIn m e) (h : f.group exec w l t st = .ok (b, l', t', f', w')) :
    FlowIn f f' ∧ (∀ e ∈ l', GElIn m e) ∧ WorkFit pal R w' := by
  unfold CBox.group at h
  have h0 : FlowIn f (if f.starting then f else { f with y := f.y - st.top }) := by
    split
    · exact ⟨BoxFrame.refl _, le_refl _, hf.last⟩
    · exact ⟨⟨rfl, rfl, rfl, rfl, rfl, rfl, rfl, rfl, rfl, rfl, rfl, rfl, rfl, rfl, rfl, rfl, rfl, rfl, rfl, rfl, rfl, rfl⟩, by simpa using hst, hf.last⟩
  have hy : ∀ (k : CBox σ), FlowIn f k → FlowIn f { k with y := f.y } := fun k hk =>
    ⟨hk.frame.trans ⟨rfl, rfl, rfl, rfl, rfl, rfl, rfl, rfl, rfl, rfl, rfl, rfl, rfl, rfl, rfl, rfl, rfl, rfl, rfl, rfl, rfl, rfl⟩, le_refl _, hk.last⟩
  cases ht : CBox.groupTry exec w false l (if f.starting then f else { f with y := f.y - st.top }) with
  | error e => rw [ht] at h; cases h
  | ok q =>
    obtain ⟨c, l1, f1⟩ := q
    rw [ht] at h
    obtain ⟨k1, k2⟩ := groupTry_shapes hk hw l (h0.frameIn hf) hl ht
    have k1' := hy f1 (h0.trans k1)
    cases c with
    | false =>
      simp only at h
      split at h
      · cases h
      · simp only [Except.ok.injEq, Prod.mk.injEq] at h
        obtain ⟨-, rfl, -, rfl, rfl⟩ := h
        exact ⟨k1', k2, hw⟩
    | true =>
      simp only at h
      split at h
      · cases h
      · split at h
        · cases h
        · rename_i l2 f2 w2 h2
          simp only [Except.ok.injEq, Prod.mk.injEq] at h
          obtain ⟨-, rfl, -, rfl, rfl⟩ := h
          obtain ⟨j1, j2, j3⟩ := groupPut_shapes hk _ l1 hw (k1'.frameIn hf) k2 h2
          exact ⟨k1'.trans j1, j2, j3⟩

theorem process_shapes (hk : KeepsShapes pal exec) {f f' : CBox σ} {w w' : COut P B C} {e e' : CEl σ} {a : CAns σ} {W : Rat} (hf : FrameIn one m R f) (he : ElIn one m W e)
    (hw : WorkFit pal R w) (h : f.process exec w e = .ok (a, e', f', w')) :
    FlowIn f f' ∧ WorkFit pal R w' ∧ FlatIn one m e' ∧ ∀ d ∈ a.delayed.toList, FlatIn one m d := by
  unfold CBox.process at h
  cases he with
  | @leaf _ c st hst =>
    simp only at h
    have hl : ∀ c', FlatIn one m (.leaf c' st : CEl σ) := fun c' W => .leaf hst
    split at h
    · cases h
    · rename_i f1 w1 h1
      simp only [Except.ok.injEq, Prod.mk.injEq] at h
      obtain ⟨rfl, rfl, rfl, rfl⟩ := h
      obtain ⟨a1, a2⟩ := leaf_shapes hk hf hst hw h1
      exact ⟨a1, a2, hl c, by simp⟩
    · rename_i c' f1 w1 h1
      simp only [Except.ok.injEq, Prod.mk.injEq] at h
      obtain ⟨rfl, rfl, rfl, rfl⟩ := h
      obtain ⟨a1, a2⟩ := leaf_shapes hk hf hst hw h1
      exact ⟨a1, a2, hl c, by simpa using hl c'⟩
  | @image _ i hi =>
    simp only at h
    split at h
    · cases h
    · rename_i f1 w1 h1
      simp only [Except.ok.injEq, Prod.mk.injEq] at h
      obtain ⟨rfl, rfl, rfl, rfl⟩ := h
      obtain ⟨a1, a2, -⟩ := image_shapes hf hi hw h1
      exact ⟨a1, a2, fun W => .image hi, by simp⟩
    · rename_i i' f1 w1 h1
      simp only [Except.ok.injEq, Prod.mk.injEq] at h
      obtain ⟨rfl, rfl, rfl, rfl⟩ := h
      obtain ⟨a1, a2, a3⟩ := image_shapes hf hi hw h1
      obtain ⟨n1, n2, n3⟩ := a3 i' rfl
      have hi' : FlatIn one m (.image i' : CEl σ) := fun W => .image (by unfold ImgIn; rw [n1, n2, n3]; exact hi)
      exact ⟨a1, a2, hi', by simpa using hi'⟩
  | @group _ l t st hst hl =>
    simp only at h
    split at h
    · cases h
    · rename_i l1 t1 f1 w1 h1
      simp only [Except.ok.injEq, Prod.mk.injEq] at h
      obtain ⟨rfl, rfl, rfl, rfl⟩ := h
      obtain ⟨k1, k2, k3⟩ := group_shapes hk hw hf hst hl h1
      exact ⟨k1, k3, fun W => .group hst k2, by simp⟩
    · rename_i l1 t1 f1 w1 h1
      simp only [Except.ok.injEq, Prod.mk.injEq] at h
      obtain ⟨rfl, rfl, rfl, rfl⟩ := h
      obtain ⟨k1, k2, k3⟩ := group_shapes hk hw hf hst hl h1
      exact ⟨k1, k3, fun W => .group hst k2, fun d hd => by
        have hd : l1.length = l1.length ∧ d = .group l1 t1 st := ⟨rfl, by simpa using hd⟩
        rw [hd.2]
        exact fun W => .group hst k2⟩
  | child => cases h

theorem addDelayed_shapes (hk : KeepsShapes pal exec) (n k : Nat) {f f' : CBox σ} {w w' : COut P B C} {act : CAct} (hf : FrameIn one m R f) (hw : WorkFit pal R w)
    (h : f.addDelayed exec n k w = .ok (act, f', w')) :
    FrameIn one m R f' ∧ WorkFit pal R w' ∧ SameShape f f' := by
  induction n generalizing k f w with
  | zero => cases h
  | succ n ih =>
    rw [CBox.addDelayed] at h
    cases h1 : f.delayed[k]? with
    | none =>
      rw [h1] at h
      simp only [Except.ok.injEq, Prod.mk.injEq] at h
      obtain ⟨-, rfl, rfl⟩ := h
      exact ⟨hf, hw, .refl _⟩
    | some e =>
      rw [h1] at h
      simp only at h
      cases h2 : f.process exec w e with
      | error e => rw [h2] at h; cases h
      | ok q =>
        obtain ⟨a, e', f1, w1⟩ := q
        rw [h2] at h
        simp only at h
        obtain ⟨k1, k2, k3, k4⟩ := process_shapes hk hf (hf.delayed e (List.mem_of_getElem? h1) 0) hw h2
        have hf1 := k1.frameIn hf
        have hf2 : FrameIn one m R { f1 with delayed := replaceAt f1.delayed k a.delayed } :=
          { hf1 with delayed := replaceAt_mem hf1.delayed k4 }
        have hsh : SameShape f { f1 with delayed := replaceAt f1.delayed k a.delayed } := ⟨k1.shape.cols, k1.shape.gap, k1.shape.width, k1.shape.colsGap⟩
        by_cases hn : a.next = true
        · rw [if_pos hn] at h
          simp only [Except.ok.injEq, Prod.mk.injEq] at h
          obtain ⟨-, rfl, rfl⟩ := h
          exact ⟨hf2, k2, hsh⟩
        · rw [if_neg hn] at h
          obtain ⟨j1, j2, j3⟩ := ih _ hf2 k2 h
          exact ⟨j1, j2, hsh.trans j3⟩

theorem reset_shapes {f : CBox σ} {w : COut P B C} (hno : one → False) (hf : FrameIn one m R f) (hw : WorkFit pal R w) :
    FrameIn one m R (f.reset w).2.1 ∧ WorkFit pal R (f.reset w).2.2 ∧ SameShape f (f.reset w).2.1 := by
  have hcols : 0 < f.cols := lt_of_le_of_lt (Nat.zero_le _) hf.column
  unfold CBox.reset
  split
  · exact ⟨hf, hw, .refl _⟩
  · refine ⟨?_, ?_, ?_⟩
    · simp only
      split <;> exact { hf with column := hcols, y := hf.top, delayed := hf.section_, floor := fun ho => (hno ho).elim }
    · exact hw
    · simp only
      split <;> exact ⟨rfl, rfl, rfl, rfl⟩

theorem breakAct_shapes {f : CBox σ} {anc : List (CBox σ)} {w : COut P B C} (hs : StackIn one m R (f :: anc)) (hw : WorkFit pal R w) :
    StackIn one m R (breakAct f anc w).2.1 ∧ WorkFit pal R (breakAct f anc w).2.2 ∧ SameShapes (f :: anc) (breakAct f anc w).2.1 := by
  unfold breakAct
  split
  · rename_i hr
    have hno : one → False := fun ho => by
      obtain ⟨-, -, a, b⟩ := hs.head.floor ho
      rw [a, b] at hr
      simp at hr
    obtain ⟨k1, k2, k3⟩ := reset_shapes (pal := pal) hno hs.head hw
    exact ⟨hs.replace k1 k3, k2, .cons k3 (shapes_refl _)⟩
  · exact ⟨hs, hw, shapes_refl _⟩

theorem answerAct_shapes (a : CAct) {stk : List (CBox σ)} {w : COut P B C} (hs : StackIn one m R stk) (hw : WorkFit pal R w) :
    StackIn one m R (answerAct a stk w).2.1 ∧ WorkFit pal R (answerAct a stk w).2.2 ∧ SameShapes stk (answerAct a stk w).2.1 := by
  unfold answerAct
  cases stk with
  | nil => exact ⟨hs, hw, .nil⟩
  | cons f anc =>
    cases a with
    | brk => exact breakAct_shapes hs hw
    | next =>
      have h := nextSection_in w.parts.length (f :: anc) none (by simp) hs
      simp only
      split
      · rename_i g anc' heq
        rw [heq] at h
        obtain ⟨b1, b2, b3⟩ := breakAct_shapes h.1 hw
        exact ⟨b1, b2, shapes_trans h.2.1 b3⟩
      · rename_i stk' heq
        rw [heq] at h
        exact ⟨h.1, hw, h.2.1⟩
      · rename_i stk' heq
        rw [heq] at h
        exact ⟨h.1, hw, h.2.1⟩
      · rename_i r stk' _ _ _ heq
        rw [heq] at h
        exact ⟨h.1, hw, h.2.1⟩
    | interrupt => exact ⟨hs, hw, shapes_refl _⟩
    | partialNext => exact ⟨hs, hw, shapes_refl _⟩
    | cont => exact ⟨hs, hw, shapes_refl _⟩
    | retry => exact ⟨hs, hw, shapes_refl _⟩

theorem run_shapes (hk : KeepsShapes pal exec) (n : Nat) :
    (∀ (stk stk' : List (CBox σ)) (w w' : COut P B C) (a : CAct), StackIn one m R stk → WorkFit pal R w → contentRun exec n stk w = .ok (a, stk', w') →
      StackIn one m R stk' ∧ WorkFit pal R w' ∧ SameShapes stk stk') ∧
    (∀ (stk stk' : List (CBox σ)) (w w' : COut P B C) (a : CAct), StackIn one m R stk → WorkFit pal R w → contentElements exec n stk w = .ok (a, stk', w') →
      StackIn one m R stk' ∧ WorkFit pal R w' ∧ SameShapes stk stk') := by
  induction n with
  | zero =>
    constructor
    · intro stk stk' w w' a _ _ h
      rw [contentRun] at h; cases h
    · intro stk stk' w w' a _ _ h
      rw [contentElements] at h; cases h
  | succ n ih =>
    obtain ⟨ih1, ih2⟩ := ih
    constructor
    · intro stk stk' w w' a hs hw h
      cases stk with
      | nil => simp [contentRun] at h
      | cons f anc =>
        rw [contentRun] at h
        cases hd : f.addDelayed exec n 0 w with
        | error e => rw [hd] at h; cases h
        | ok q =>
          obtain ⟨a1, f1, w1⟩ := q
          rw [hd] at h
          obtain ⟨k1, k2, ks⟩ := addDelayed_shapes hk n 0 hs.head hw hd
          have k3 := answerAct_shapes a1 (hs.replace k1 ks) k2
          simp only at h
          have ks' : SameShapes (f :: anc) (f1 :: anc) := .cons ks (shapes_refl anc)
          generalize answerAct a1 (f1 :: anc) w1 = r1 at h k3
          obtain ⟨a2, stk2, w2⟩ := r1
          obtain ⟨k3, k4, k5⟩ := k3
          simp only at k3 k4 k5
          replace k5 := shapes_trans ks' k5
          have again : ∀ {stk2 : List (CBox σ)} {w2 : COut P B C}, StackIn one m R stk2 → WorkFit pal R w2 → SameShapes (f :: anc) stk2 →
              contentRun exec n stk2 w2 = .ok (a, stk', w') → StackIn one m R stk' ∧ WorkFit pal R w' ∧ SameShapes (f :: anc) stk' := by
            intro stk2 w2 e1 e2 e3 e4
            obtain ⟨i1, i2, i3⟩ := ih1 _ _ _ _ _ e1 e2 e4
            exact ⟨i1, i2, shapes_trans e3 i3⟩
          split at h
          · rename_i heq
            cases heq
            exact again k3 k4 k5 h
          · rename_i heq
            cases heq
            cases h
            exact ⟨k3, k4, k5⟩
          · rename_i heq
            cases heq
            cases h
            exact ⟨k3, k4, k5⟩
          · rename_i heq
            cases heq
            cases h
            exact ⟨k3, k4, k5⟩
          · rename_i heq
            cases heq
            cases he : contentElements exec n stk2 w2 with
            | error e => rw [he] at h; cases h
            | ok q =>
              obtain ⟨a3, stk3, w3⟩ := q
              rw [he] at h
              obtain ⟨j5, j6, j7⟩ := ih2 _ _ _ _ _ k3 k4 he
              have k7 := answerAct_shapes a3 j5 j6
              simp only at h
              generalize answerAct a3 stk3 w3 = r3 at h k7
              obtain ⟨a4, stk4, w4⟩ := r3
              obtain ⟨k7, k8, k9⟩ := k7
              simp only at k7 k8 k9
              replace k9 := shapes_trans k5 (shapes_trans j7 k9)
              split at h
              · rename_i heq
                cases heq
                exact again k7 k8 k9 h
              · rename_i heq
                cases heq
                cases h
                exact ⟨k7, k8, k9⟩
              · rename_i heq
                cases heq
                cases h
                exact ⟨k7, k8, k9⟩
              · rename_i heq
                cases heq
                cases h
                exact ⟨k7, k8, k9⟩
              · rename_i heq
                cases heq
                cases h
                exact ⟨k7, k8, k9⟩
              · rename_i f5 anc5 w5 _ _ _ _ heq
                obtain ⟨-, rfl, rfl⟩ : a4 = a4 ∧ stk4 = f5 :: anc5 ∧ w4 = w5 := by
                  simp only [Prod.mk.injEq] at heq
                  exact ⟨rfl, heq.2.1, heq.2.2⟩
                split at h
                · exact again k7 k8 k9 h
                · split at h
                  · rename_i hcond
                    have hno : one → False := fun ho => by have := (k7.head.floor ho).1; omega
                    split at h
                    · cases h
                      exact ⟨k7, k8, k9⟩
                    · obtain ⟨s1, s2⟩ := startResetting_in hno _ k7
                      split at h
                      · rename_i heq6
                        rw [heq6] at s2
                        cases s2
                      · rename_i f6 anc6 heq6
                        rw [heq6] at s1 s2
                        split at h
                        · obtain ⟨j1, j2, j3⟩ := reset_shapes (pal := pal) hno s1.head k8
                          exact again (s1.replace j1 j3) j2 (shapes_trans k9 (shapes_trans s2 (.cons j3 (shapes_refl _)))) h
                        · cases h
                          exact ⟨s1, k8, shapes_trans k9 s2⟩
                  · split at h
                    · rename_i hres
                      have h5 := k7.head
                      have hno : one → False := fun ho => by have := (h5.floor ho).2.2.2; rw [this] at hres; cases hres
                      have h6 : FrameIn one m R { f5 with forward := false } := { h5 with floor := fun ho => (hno ho).elim }
                      obtain ⟨j1, j2, j3⟩ := reset_shapes (f := { f5 with forward := false }) (pal := pal) hno h6 k8
                      have j4 : SameShape f5 (CBox.reset { f5 with forward := false } w4).2.1 := ⟨j3.cols, j3.gap, j3.width, j3.colsGap⟩
                      split at h
                      · exact again (k7.replace j1 j4) j2 (shapes_trans k9 (.cons j4 (shapes_refl _))) h
                      · cases h
                        exact ⟨k7.replace j1 j4, j2, shapes_trans k9 (.cons j4 (shapes_refl _))⟩
                    · cases h
                      exact ⟨k7, k8, k9⟩
    · intro stk stk' w w' a hs hw h
      cases stk with
      | nil => simp [contentElements] at h
      | cons f anc =>
        rw [contentElements] at h
        have hf := hs.head
        split at h
        · cases h
          exact ⟨hs, hw, shapes_refl _⟩
        · rename_i cols gap els st he
          have hels := hf.elements _ (List.mem_of_getElem? he)
          split at h
          · cases h
          · obtain ⟨k1, k2, k3, k4, k5⟩ := newChild_in hf (decide (f.index + 1 = f.elements.length)) w.parts.length hels
            have hstk : StackIn one m R ((f.newChild cols gap els st (decide (f.index + 1 = f.elements.length)) w.parts.length).2 ::
                (f.newChild cols gap els st (decide (f.index + 1 = f.elements.length)) w.parts.length).1 :: anc) :=
              .cons k2 (fun p hp => by cases hp; rw [k4, k3.width]) (hs.replace k1 k3)
            simp only at h
            split at h
            · cases h
            · rename_i a1 c1 f1 anc1 w1 hr
              obtain ⟨j1, j2, j3⟩ := ih1 _ _ _ _ _ hstk hw hr
              have hc := j1.head
              have hf1 := j1.tail.head
              cases j3 with
              | cons s1 s2 => cases s2 with
                | cons s2 s3 =>
                have w1' : c1.colWidth = columnWidth cols gap f1.colWidth := by rw [s1.width, k5, s2.width, k3.width]
                have hch : ElIn one m f1.colWidth (.child cols gap c1.elements st) := by
                  have e1 : f1.colWidth = f.colWidth := by rw [s2.width, k3.width]
                  cases hels with
                  | child q1 q2 q3 q4 q5 q6 =>
                    refine .child q1 q2 q3 q4 (by rw [e1]; exact q5) ?_
                    rw [← w1']
                    exact hc.elements
                have hst : 0 ≤ st.bottom := by cases hels with | child q1 => exact q1.2
                have hf2 : FrameIn one m R { f1 with elements := f1.elements.set f1.index (.child cols gap c1.elements st) } :=
                  { hf1 with elements := set_mem hf1.elements hch }
                have hf3 : FrameIn one m R (if a1 = .partialNext then { f1 with elements := f1.elements.set f1.index (.child cols gap c1.elements st) }
                    else CBox.childTook { f1 with elements := f1.elements.set f1.index (.child cols gap c1.elements st) } c1 f.y st) ∧
                    SameShape f (if a1 = .partialNext then { f1 with elements := f1.elements.set f1.index (.child cols gap c1.elements st) }
                    else CBox.childTook { f1 with elements := f1.elements.set f1.index (.child cols gap c1.elements st) } c1 f.y st) := by
                  have sh := k3.trans s2
                  split
                  · exact ⟨hf2, ⟨sh.cols, sh.gap, sh.width, sh.colsGap⟩⟩
                  · unfold CBox.childTook CBox.took
                    generalize (c1.minY - if c1.cols > 1 then c1.maxY else c1.y) = hgt
                    split
                    · rename_i hh
                      have hy := hf2.y
                      refine ⟨{ hf2 with y := ?_, last := hst }, ⟨sh.cols, sh.gap, sh.width, sh.colsGap⟩⟩
                      simp only at hy ⊢
                      linarith
                    · exact ⟨{ hf2 with y := hf.y }, ⟨sh.cols, sh.gap, sh.width, sh.colsGap⟩⟩
                generalize (if a1 = .partialNext then { f1 with elements := f1.elements.set f1.index (.child cols gap c1.elements st) }
                    else CBox.childTook { f1 with elements := f1.elements.set f1.index (.child cols gap c1.elements st) } c1 f.y st) = f3 at h hf3
                obtain ⟨hf3, hsh⟩ := hf3
                have hst3 : ∀ g : CBox σ, FrameIn one m R g → SameShape f g → StackIn one m R (g :: anc1) := by
                  intro g hg hsg
                  refine .cons hg (fun p hp => ?_) j1.tail.tail
                  rw [← j1.tail.link p hp, hsg.total, ← (k3.trans s2).total]
                split at h
                · cases h
                  exact ⟨hst3 f3 hf3 hsh, j2, .cons hsh s3⟩
                · obtain ⟨i1, i2, i3⟩ := ih2 _ _ _ _ _ (hst3 { f3 with starting := false, index := f3.index + 1 } { hf3 with } ⟨hsh.cols, hsh.gap, hsh.width, hsh.colsGap⟩) j2 h
                  have hsh' : SameShape f { f3 with starting := false, index := f3.index + 1 } := ⟨hsh.cols, hsh.gap, hsh.width, hsh.colsGap⟩
                  exact ⟨i1, i2, shapes_trans (.cons hsh' s3) i3⟩
            · rename_i a1 stk1 w1 hne hr
              obtain ⟨j1, j2, j3⟩ := ih1 _ _ _ _ _ hstk hw hr
              cases j3 with
              | cons s1 s2 => cases s2 with
                | cons s2 s3 => exact (hne _ _ _ rfl).elim
        · rename_i e _ he
          have hse := hf.elements _ (List.mem_of_getElem? he)
          split at h
          · cases h
          · rename_i a1 e1 f1 w1 hp
            obtain ⟨j1, j2, j3, j4⟩ := process_shapes hk hf hse hw hp
            have hf1 := j1.frameIn hf
            have hf2 : FrameIn one m R { f1 with elements := f1.elements.set f1.index e1, index := f1.index + 1, delayed := f1.delayed ++ a1.delayed.toList } := by
              refine { hf1 with elements := set_mem hf1.elements (j3 _), delayed := ?_ }
              intro d hd
              rcases List.mem_append.1 hd with hd | hd
              · exact hf1.delayed d hd
              · exact j4 d hd
            have hsh : SameShape f { f1 with elements := f1.elements.set f1.index e1, index := f1.index + 1, delayed := f1.delayed ++ a1.delayed.toList } :=
              ⟨j1.shape.cols, j1.shape.gap, j1.shape.width, j1.shape.colsGap⟩
            simp only at h
            split at h
            · cases h
              exact ⟨hs.replace hf2 hsh, j2, .cons hsh (shapes_refl _)⟩
            · obtain ⟨i1, i2, i3⟩ := ih2 _ _ _ _ _ (hs.replace hf2 hsh) j2 h
              exact ⟨i1, i2, shapes_trans (.cons hsh (shapes_refl _)) i3⟩

end

theorem content_run_shapes {exec : σ → Rat → Rat → Rat → Rat → Except PyErr (CellOut σ P B C)} {pal : Palette B C} {one : Prop} {m W : Rat} (hk : KeepsShapes pal exec)
    {s s' : CContent σ P B C} (hs : ContentIn one m W s) {fuel : Nat} {x y h : Rat} (hr : s.run exec fuel x y W h = .ok s') :
    ContentIn one m W s' ∧ WorkFit pal ⟨x, x + W, y, y - h⟩ s'.out := by
  unfold CContent.run at hr
  split at hr
  · cases hr
  · simp only at hr
    have hbox : FrameIn one m ⟨x, x + W, y, y - h⟩ ((s.box.getD (CBox.blank s.cols s.gap s.elements true)).setup x W y (y - h) 0) := by
      cases hb : s.box with
      | none => exact setup_in _ rfl rfl hs.cols hs.one_ hs.gap hs.least hs.width hs.elements (by intro e h; cases h) (by intro e h; cases h) (by intro l hl; cases hl)
      | some f =>
        obtain ⟨b1, b2, b3, b4, b5, b6⟩ := hs.box f hb
        exact setup_in _ b1 b2 hs.cols hs.one_ hs.gap hs.least hs.width b3 b4 b5 b6
    have hco : ((s.box.getD (CBox.blank s.cols s.gap s.elements true)).setup x W y (y - h) 0).cols = s.cols ∧
        ((s.box.getD (CBox.blank s.cols s.gap s.elements true)).setup x W y (y - h) 0).gapOpt = s.gap := by
      cases hb : s.box with
      | none => exact ⟨rfl, rfl⟩
      | some f =>
        obtain ⟨b1, b2, -⟩ := hs.box f hb
        exact ⟨b1, b2⟩
    have hwd : ((s.box.getD (CBox.blank s.cols s.gap s.elements true)).setup x W y (y - h) 0).colWidth = columnWidth s.cols s.gap W := by
      cases hb : s.box with
      | none => rfl
      | some f =>
        obtain ⟨b1, b2, -⟩ := hs.box f hb
        rw [← b1, ← b2]
        rfl
    generalize (s.box.getD (CBox.blank s.cols s.gap s.elements true)).setup x W y (y - h) 0 = f0 at hr hbox hco hwd
    split at hr
    · cases hr
    · rename_i a f1 l1 w1 h1
      cases hr
      obtain ⟨k1, k2, k3⟩ := (run_shapes hk fuel).1 _ _ _ _ _ (.cons hbox (by intro p hp; cases hp) .nil) ⟨(by intro p hp; cases hp), (by intro p hp; cases hp)⟩ h1
      cases k3 with
      | cons s1 s2 =>
      have hf := k1.head
      refine ⟨⟨hs.cols, hs.one_, hs.gap, hs.least, hs.width, hs.elements, ?_⟩, k2⟩
      intro f hf'
      cases hf'
      refine ⟨s1.cols.trans hco.1, s1.gap.trans hco.2, ?_, hf.section_, hf.memory, hf.partly⟩
      rw [← hwd, ← s1.width]
      exact hf.elements
    · cases hr


end Verif
