import Verif.Props.C39_Images
import Verif.Props.C83_InCells
import Verif.Spec.InBox
import Mathlib.Tactic.Linarith
/-! C85: a content box shows nothing outside of its rectangle. -/
namespace Verif
open Spec

variable {σ P B C : Type}

section
variable {exec : σ → Rat → Rat → Rat → Rat → Except PyErr (CellOut σ P B C)} {area : P → Area} {one : Prop} {m : Rat} {R : Area}

/-- the elements that can be delayed: no boxes -/
def FlatIn (one : Prop) (m : Rat) (e : CEl σ) : Prop := ∀ W, ElIn one m W e

/-- the width of all the columns -/
def CBox.total (f : CBox σ) : Rat := f.cols * f.colWidth + ((f.cols : Rat) - 1) * f.colsGap

structure FrameIn (one : Prop) (m : Rat) (R : Area) (f : CBox σ) : Prop where
  left : R.left ≤ f.minX
  right : f.minX + f.total ≤ R.right
  column : f.column < f.cols
  least : 0 ≤ m
  width : m ≤ f.colWidth
  gap : 0 ≤ f.colsGap
  top : f.minY ≤ R.top
  y : f.y ≤ R.top
  last : 0 ≤ f.lastBottom
  floor : one → f.cols = 1 ∧ R.bottom ≤ f.maxY ∧ f.willReset = false ∧ f.resetting = false
  elements : ∀ e ∈ f.elements, ElIn one m f.colWidth e
  delayed : ∀ e ∈ f.delayed, FlatIn one m e
  section_ : ∀ e ∈ f.sectionDelayed, FlatIn one m e
  memory : ∀ q ∈ f.childrenMemory, ∀ e ∈ q.delayed, FlatIn one m e
  partly : ∀ l, f.partialMemory = some l → ∀ q ∈ l, ∀ e ∈ q.delayed, FlatIn one m e

theorem FrameIn.col {f : CBox σ} (h : FrameIn one m R f) : R.left ≤ f.colX ∧ f.colX + f.colWidth ≤ R.right := by
  have h1 := h.left
  have h2 := h.right
  have h3 : ((f.column : Rat)) + 1 ≤ f.cols := by exact_mod_cast h.column
  have h4 : (0 : Rat) ≤ f.column := Nat.cast_nonneg _
  have hs : 0 ≤ f.colWidth + f.colsGap := add_nonneg (le_trans h.least h.width) h.gap
  have e1 : 0 ≤ (f.column : Rat) * (f.colWidth + f.colsGap) := mul_nonneg h4 hs
  have e2 : 0 ≤ ((f.cols : Rat) - 1 - f.column) * (f.colWidth + f.colsGap) := mul_nonneg (by linarith) hs
  unfold CBox.colX
  unfold CBox.total at h2
  constructor
  · linarith
  · linarith

/-- after an element was placed -/
structure FlowIn (f f' : CBox σ) : Prop where
  frame : BoxFrame f f'
  y : f'.y ≤ f.y
  last : 0 ≤ f'.lastBottom

theorem FlowIn.frameIn {f f' : CBox σ} (h : FlowIn f f') (hf : FrameIn one m R f) : FrameIn one m R f' := by
  have k := h.frame
  refine ⟨?_, ?_, ?_, hf.least, ?_, ?_, ?_, le_trans h.y hf.y, h.last, ?_, ?_, ?_, ?_, ?_, ?_⟩
  · rw [k.minX]; exact hf.left
  · rw [CBox.total, k.minX, k.cols, k.colWidth, k.colsGap]; exact hf.right
  · rw [k.column, k.cols]; exact hf.column
  · rw [k.colWidth]; exact hf.width
  · rw [k.colsGap]; exact hf.gap
  · rw [k.minY]; exact hf.top
  · rw [k.cols, k.maxY, k.willReset, k.resetting]; exact hf.floor
  · rw [k.elements, k.colWidth]; exact hf.elements
  · rw [k.delayed]; exact hf.delayed
  · rw [k.sectionDelayed]; exact hf.section_
  · rw [k.childrenMemory]; exact hf.memory
  · rw [k.partialMemory]; exact hf.partly

theorem FlowIn.trans {f g h : CBox σ} (a : FlowIn f g) (b : FlowIn g h) : FlowIn f h := ⟨a.frame.trans b.frame, le_trans b.y a.y, b.last⟩

/-- all that is to be seen is where it should be -/
def PartsIn (area : P → Area) (one : Prop) (R : Area) (ps : List (CPart P)) : Prop := ∀ p ∈ ps, PartIn one R (cArea area p)

theorem PartsIn.append {a b : List (CPart P)} (ha : PartsIn area one R a) (hb : PartsIn area one R b) : PartsIn area one R (a ++ b) := by
  intro p hp
  rcases List.mem_append.1 hp with hp | hp
  · exact ha p hp
  · exact hb p hp

theorem descend_in (f : CBox σ) {st : CStyle} {top : Bool} (h : 0 ≤ st.top) (hl : 0 ≤ f.lastBottom) : FlowIn f (f.descend st top) := by
  refine ⟨descend_frame _ _ _, ?_, ?_⟩ <;> unfold CBox.descend <;> split
  · exact le_refl _
  · simp only
    split <;> linarith
  · exact hl
  · exact hl

/-- the rectangle of an element -/
theorem elem_rect {f : CBox σ} {st : CStyle} {top : Bool} (hf : FrameIn one m R f) (h : StyleTidy st) {a : Area}
    (ha : a.Seen → a.Within ⟨(f.descend st top).elX st, (f.descend st top).elX st + (f.descend st top).elWidth st, (f.descend st top).y,
      (f.descend st top).y - (f.descend st top).room⟩) : PartIn one R a := by
  have hd := descend_in f (top := top) h.1 hf.last
  have hg := hd.frameIn hf
  generalize f.descend st top = g at ha hg
  intro hs
  obtain ⟨h1, h2, h3, h4⟩ := ha hs
  obtain ⟨c1, c2⟩ := hg.col
  have hy := hg.y
  simp only [CBox.elX, CBox.elWidth] at h1 h2
  obtain ⟨-, -, s1, s2⟩ := h
  refine ⟨by linarith, by linarith, le_trans h3 hy, fun ho => ?_⟩
  have hfl := (hg.floor ho).2.1
  simp only [CBox.room] at h3 h4
  unfold Area.Seen at hs
  rcases max_cases 0 (g.y - g.maxY) with ⟨e, -⟩ | ⟨e, -⟩ <;> rw [e] at h4 <;> linarith

theorem leaf_in (hk : KeepsIn area exec) {f f' : CBox σ} {w w' : COut P B C} {c : σ} {st : CStyle} {add top : Bool} {r : Option σ} (hf : FrameIn one m R f) (hst : StyleTidy st)
    (hw : PartsIn area one R w.parts) (h : f.leaf exec w c st add top = .ok (r, f', w')) : FlowIn f f' ∧ PartsIn area one R w'.parts := by
  obtain ⟨o, ho, -, rfl, rfl⟩ := leaf_ok h
  have hd := descend_in f (top := top) hst.1 hf.last
  constructor
  · refine ⟨hd.frame.trans (took_frame _ _ _ _), ?_, ?_⟩ <;> unfold CBox.took <;> split
    · rename_i hh
      simp only
      have := hd.y
      linarith
    · exact le_refl _
    · exact hst.2.1
    · exact hd.last
  · cases add
    · exact hw
    · refine hw.append ?_
      intro p hp
      obtain ⟨q, hq, rfl⟩ := List.mem_map.1 hp
      exact elem_rect hf hst (hk _ _ _ _ _ _ ho q hq)

theorem fit_within {i : CImg} {x width room : Rat} {r : Rat × Rat × Rat} (hw : 0 < i.width) (hh : 0 < i.height) (h : i.fit x width room = some r) (hr : 0 < r.2.2) :
    x ≤ r.1 ∧ r.1 + r.2.1 ≤ x + width ∧ r.2.2 ≤ room := by
  unfold CImg.fit at h
  simp only at h
  split at h
  · rename_i hlt
    cases h
    exact ⟨le_refl _, le_refl _, le_of_lt hlt⟩
  · rename_i hge
    split at h
    · cases h
    · rename_i m hmin
      split at h
      · rename_i hle
        have key : ∀ q : Rat, q ≤ room → q * i.width / i.height ≤ width := by
          intro q hqr
          rw [div_le_iff₀ hh]
          have h1 : room ≤ width * i.height / i.width := not_lt.1 hge
          rw [le_div_iff₀ hw] at h1
          have : q * i.width ≤ room * i.width := mul_le_mul_of_nonneg_right hqr (le_of_lt hw)
          linarith
        have hq : (if i.style.shrink = true then m else room) ≤ room := by
          split
          · exact hle
          · exact le_refl _
        cases h
        generalize (if i.style.shrink = true then m else room) = q at hq hr ⊢
        have hk := key q hq
        simp only at hr ⊢
        exact ⟨by linarith, by linarith, hq⟩
      · cases h

theorem fit_height {i : CImg} {x width room : Rat} {r : Rat × Rat × Rat} (hi : ImgIn m i) (hx : 0 ≤ width) (hr : 0 ≤ room) (h : i.fit x width room = some r) : 0 ≤ r.2.2 := by
  obtain ⟨-, -, hw, hh, hm⟩ := hi
  unfold CImg.fit at h
  simp only at h
  split at h
  · cases h
    positivity
  · split at h
    · cases h
    · rename_i m hmin
      split at h
      · cases h
        simp only
        split
        · exact le_of_lt (hm _ hmin)
        · exact hr
      · cases h

theorem image_in {f f' : CBox σ} {w w' : COut P B C} {i : CImg} {add top : Bool} {r : Option CImg} (hf : FrameIn one m R f) (hi : ImgIn m i)
    (hw : PartsIn area one R w.parts) (h : f.image w i add top = .ok (r, f', w')) :
    FlowIn f f' ∧ PartsIn area one R w'.parts ∧ ∀ i', r = some i' → i'.style = i.style ∧ i'.width = i.width ∧ i'.height = i.height := by
  have hfr := image_frame h
  have hst := hi.1
  have hd := descend_in f (top := top) hst.1 hf.last
  unfold CBox.image at h
  simp only at h
  split at h
  · cases h
  · split at h
    · rename_i x width height hfit
      simp only [Except.ok.injEq, Prod.mk.injEq] at h
      obtain ⟨rfl, rfl, rfl⟩ := h
      have hx : 0 ≤ (f.descend i.style top).elWidth i.style := by
        have h1 := (hd.frameIn hf).width
        have h2 := hi.2.1
        unfold CBox.elWidth
        linarith
      have hh := fit_height hi hx (le_max_left _ _) hfit
      simp only at hh
      refine ⟨⟨hfr, ?_, hst.2.1⟩, ?_, by simp⟩
      · have := hd.y
        simp only
        linarith
      · cases add
        · exact hw
        · refine hw.append ?_
          intro p hp
          rw [List.mem_singleton] at hp
          subst hp
          refine elem_rect (top := top) hf hst fun hs => ?_
          simp only [Area.Seen, cArea] at hs
          obtain ⟨k1, k2, k3⟩ := fit_within hi.2.2.1 hi.2.2.2.1 hfit (show 0 < height by linarith)
          refine ⟨k1, k2, ?_, ?_⟩ <;> simp only [cArea] at k3 ⊢ <;> linarith
    · split at h
      · cases h
      · simp only [Except.ok.injEq, Prod.mk.injEq] at h
        obtain ⟨rfl, rfl, rfl⟩ := h
        refine ⟨⟨hfr, le_refl _, hd.last⟩, hw, ?_⟩
        intro i' hi'
        cases hi'
        exact ⟨rfl, rfl, rfl⟩

theorem groupEl_in (hk : KeepsIn area exec) {f f' : CBox σ} {w w' : COut P B C} {e e' : GEl σ} {add top b : Bool} {mh : Option Rat} (hf : FrameIn one m R f) (he : GElIn m e)
    (hmh : ∀ i, e = .image i → mh = none)
    (hw : PartsIn area one R w.parts) (h : f.groupEl exec w e add top mh = .ok (b, e', f', w')) : FlowIn f f' ∧ PartsIn area one R w'.parts ∧ GElIn m e' := by
  unfold CBox.groupEl at h
  cases e with
  | leaf c st =>
    simp only at h
    split at h
    · cases h
    · rename_i r f1 w1 h1
      simp only [Except.ok.injEq, Prod.mk.injEq] at h
      obtain ⟨-, rfl, rfl, rfl⟩ := h
      obtain ⟨a1, a2⟩ := leaf_in hk hf he hw h1
      exact ⟨a1, a2, he⟩
  | image i =>
    simp only at h
    have hi := he.1
    have hi' : ImgIn m { i with style := { i.style with minHeight := mh <|> i.style.minHeight, shrink := true } } := by
      refine ⟨hi.1, hi.2.1, hi.2.2.1, hi.2.2.2.1, fun q hq => ?_⟩
      rw [hmh i rfl] at hq
      exact hi.2.2.2.2 q (by simpa using hq)
    split at h
    · cases h
    · rename_i f1 w1 h1
      simp only [Except.ok.injEq, Prod.mk.injEq] at h
      obtain ⟨-, rfl, rfl, rfl⟩ := h
      obtain ⟨a1, a2, -⟩ := image_in hf hi' hw h1
      exact ⟨a1, a2, he⟩
    · rename_i i' f1 w1 h1
      simp only [Except.ok.injEq, Prod.mk.injEq] at h
      obtain ⟨-, rfl, rfl, rfl⟩ := h
      obtain ⟨a1, a2, -⟩ := image_in hf hi' hw h1
      exact ⟨a1, a2, he⟩

theorem groupTry_in (hk : KeepsIn area exec) {w : COut P B C} (hw : PartsIn area one R w.parts) (l : List (GEl σ)) {top b : Bool} {f f' : CBox σ} {l' : List (GEl σ)}
    (hf : FrameIn one m R f) (hl : ∀ e ∈ l, GElIn m e) (h : CBox.groupTry exec w top l f = .ok (b, l', f')) : FlowIn f f' ∧ ∀ e ∈ l', GElIn m e := by
  induction l generalizing top b f l' f' with
  | nil =>
    simp only [CBox.groupTry, Except.ok.injEq, Prod.mk.injEq] at h
    obtain ⟨-, rfl, rfl⟩ := h
    exact ⟨⟨BoxFrame.refl _, le_refl _, hf.last⟩, by simp⟩
  | cons e l ih =>
    simp only [CBox.groupTry] at h
    cases h1 : f.groupEl exec w e false top none with
    | error e => rw [h1] at h; cases h
    | ok q =>
      obtain ⟨c, e1, f1, w1⟩ := q
      rw [h1] at h
      obtain ⟨k1, k2, k3⟩ := groupEl_in hk hf (hl e (by simp)) (fun _ _ => rfl) hw h1
      cases c with
      | false =>
        simp only [Except.ok.injEq, Prod.mk.injEq] at h
        obtain ⟨-, rfl, rfl⟩ := h
        refine ⟨k1, ?_⟩
        intro d hd
        rcases List.mem_cons.1 hd with rfl | hd
        · exact k3
        · exact hl d (by simp [hd])
      | true =>
        simp only at h
        cases h2 : CBox.groupTry exec w true l f1 with
        | error e => rw [h2] at h; cases h
        | ok q =>
          obtain ⟨b2, l2, f2⟩ := q
          rw [h2] at h
          simp only [Except.ok.injEq, Prod.mk.injEq] at h
          obtain ⟨-, rfl, rfl⟩ := h
          obtain ⟨j1, j2⟩ := ih (k1.frameIn hf) (fun e he => hl e (by simp [he])) h2
          refine ⟨k1.trans j1, ?_⟩
          intro d hd
          rcases List.mem_cons.1 hd with rfl | hd
          · exact k3
          · exact j2 d hd

theorem groupPut_in (hk : KeepsIn area exec) (ratio : Rat) (l : List (GEl σ)) {w w' : COut P B C} (hw : PartsIn area one R w.parts) {top : Bool} {f f' : CBox σ} {l' : List (GEl σ)}
    (hf : FrameIn one m R f) (hl : ∀ e ∈ l, GElIn m e) (h : CBox.groupPut exec ratio top l f w = .ok (l', f', w')) :
    FlowIn f f' ∧ (∀ e ∈ l', GElIn m e) ∧ PartsIn area one R w'.parts := by
  induction l generalizing top f l' f' w w' with
  | nil =>
    simp only [CBox.groupPut, Except.ok.injEq, Prod.mk.injEq] at h
    obtain ⟨rfl, rfl, rfl⟩ := h
    exact ⟨⟨BoxFrame.refl _, le_refl _, hf.last⟩, by simp, hw⟩
  | cons e l ih =>
    simp only [CBox.groupPut] at h
    cases h1 : f.groupEl exec w e true top (e.minHeight.map (· * ratio)) with
    | error e => rw [h1] at h; cases h
    | ok q =>
      obtain ⟨c, e1, f1, w1⟩ := q
      rw [h1] at h
      obtain ⟨k1, k2, k3⟩ := groupEl_in hk hf (hl e (by simp)) (by
        rintro i rfl
        have := (hl (.image i) (by simp)).2
        simp [GEl.minHeight, this]) hw h1
      simp only at h
      cases h2 : CBox.groupPut exec ratio true l f1 w1 with
      | error e => rw [h2] at h; cases h
      | ok q =>
        obtain ⟨l2, f2, w2⟩ := q
        rw [h2] at h
        simp only [Except.ok.injEq, Prod.mk.injEq] at h
        obtain ⟨rfl, rfl, rfl⟩ := h
        obtain ⟨j1, j2, j3⟩ := ih k2 (k1.frameIn hf) (fun e he => hl e (by simp [he])) h2
        refine ⟨k1.trans j1, ?_, j3⟩
        intro d hd
        rcases List.mem_cons.1 hd with rfl | hd
        · exact k3
        · exact j2 d hd

theorem group_in (hk : KeepsIn area exec) {f f' : CBox σ} {w w' : COut P B C} (hw : PartsIn area one R w.parts) {l l' : List (GEl σ)} {t t' : Nat} {st : CStyle} {b : Bool}
    (hf : FrameIn one m R f) (hst : 0 ≤ st.top) (hl : ∀ e ∈ l, GElIn m e) (h : f.group exec w l t st = .ok (b, l', t', f', w')) :
    FlowIn f f' ∧ (∀ e ∈ l', GElIn m e) ∧ PartsIn area one R w'.parts := by
  unfold CBox.group at h
  have h0 : FlowIn f (if f.starting then f else { f with y := f.y - st.top }) := by
    split
    · exact ⟨BoxFrame.refl _, le_refl _, hf.last⟩
    · exact ⟨⟨rfl, rfl, rfl, rfl, rfl, rfl, rfl, rfl, rfl, rfl, rfl, rfl, rfl, rfl, rfl, rfl, rfl, rfl, rfl, rfl, rfl, rfl⟩, by simpa using hst, hf.last⟩
  have hy : ∀ (k : CBox σ), FlowIn f k → FlowIn f { k with y := f.y } := fun k hk =>
    ⟨hk.frame.trans ⟨rfl, rfl, rfl, rfl, rfl, rfl, rfl, rfl, rfl, rfl, rfl, rfl, rfl, rfl, rfl, rfl, rfl, rfl, rfl, rfl, rfl, rfl⟩, le_refl _, hk.last⟩
  cases ht : CBox.groupTry exec w false l (if f.starting then f else { f with y := f.y - st.top }) with
  | error e => rw [ht] at h; cases h
  | ok q =>
    obtain ⟨c, l1, f1⟩ := q
    rw [ht] at h
    obtain ⟨k1, k2⟩ := groupTry_in hk hw l (h0.frameIn hf) hl ht
    have k1' := hy f1 (h0.trans k1)
    cases c with
    | false =>
      simp only at h
      split at h
      · cases h
      · simp only [Except.ok.injEq, Prod.mk.injEq] at h
        obtain ⟨-, rfl, -, rfl, rfl⟩ := h
        exact ⟨k1', k2, hw⟩
    | true =>
      simp only at h
      split at h
      · cases h
      · split at h
        · cases h
        · rename_i l2 f2 w2 h2
          simp only [Except.ok.injEq, Prod.mk.injEq] at h
          obtain ⟨-, rfl, -, rfl, rfl⟩ := h
          obtain ⟨j1, j2, j3⟩ := groupPut_in hk _ l1 hw (k1'.frameIn hf) k2 h2
          exact ⟨k1'.trans j1, j2, j3⟩

theorem process_in (hk : KeepsIn area exec) {f f' : CBox σ} {w w' : COut P B C} {e e' : CEl σ} {a : CAns σ} {W : Rat} (hf : FrameIn one m R f) (he : ElIn one m W e)
    (hw : PartsIn area one R w.parts) (h : f.process exec w e = .ok (a, e', f', w')) :
    FlowIn f f' ∧ PartsIn area one R w'.parts ∧ FlatIn one m e' ∧ ∀ d ∈ a.delayed.toList, FlatIn one m d := by
  unfold CBox.process at h
  cases he with
  | @leaf _ c st hst =>
    simp only at h
    have hl : ∀ c', FlatIn one m (.leaf c' st : CEl σ) := fun c' W => .leaf hst
    split at h
    · cases h
    · rename_i f1 w1 h1
      simp only [Except.ok.injEq, Prod.mk.injEq] at h
      obtain ⟨rfl, rfl, rfl, rfl⟩ := h
      obtain ⟨a1, a2⟩ := leaf_in hk hf hst hw h1
      exact ⟨a1, a2, hl c, by simp⟩
    · rename_i c' f1 w1 h1
      simp only [Except.ok.injEq, Prod.mk.injEq] at h
      obtain ⟨rfl, rfl, rfl, rfl⟩ := h
      obtain ⟨a1, a2⟩ := leaf_in hk hf hst hw h1
      exact ⟨a1, a2, hl c, by simpa using hl c'⟩
  | @image _ i hi =>
    simp only at h
    split at h
    · cases h
    · rename_i f1 w1 h1
      simp only [Except.ok.injEq, Prod.mk.injEq] at h
      obtain ⟨rfl, rfl, rfl, rfl⟩ := h
      obtain ⟨a1, a2, -⟩ := image_in hf hi hw h1
      exact ⟨a1, a2, fun W => .image hi, by simp⟩
    · rename_i i' f1 w1 h1
      simp only [Except.ok.injEq, Prod.mk.injEq] at h
      obtain ⟨rfl, rfl, rfl, rfl⟩ := h
      obtain ⟨a1, a2, a3⟩ := image_in hf hi hw h1
      obtain ⟨n1, n2, n3⟩ := a3 i' rfl
      have hi' : FlatIn one m (.image i' : CEl σ) := fun W => .image (by unfold ImgIn; rw [n1, n2, n3]; exact hi)
      exact ⟨a1, a2, hi', by simpa using hi'⟩
  | @group _ l t st hst hl =>
    simp only at h
    split at h
    · cases h
    · rename_i l1 t1 f1 w1 h1
      simp only [Except.ok.injEq, Prod.mk.injEq] at h
      obtain ⟨rfl, rfl, rfl, rfl⟩ := h
      obtain ⟨k1, k2, k3⟩ := group_in hk hw hf hst hl h1
      exact ⟨k1, k3, fun W => .group hst k2, by simp⟩
    · rename_i l1 t1 f1 w1 h1
      simp only [Except.ok.injEq, Prod.mk.injEq] at h
      obtain ⟨rfl, rfl, rfl, rfl⟩ := h
      obtain ⟨k1, k2, k3⟩ := group_in hk hw hf hst hl h1
      exact ⟨k1, k3, fun W => .group hst k2, fun d hd => by
        have hd : l1.length = l1.length ∧ d = .group l1 t1 st := ⟨rfl, by simpa using hd⟩
        rw [hd.2]
        exact fun W => .group hst k2⟩
  | child => cases h

/-- boxes of the same shape -/
structure SameShape (f f' : CBox σ) : Prop where
  cols : f'.cols = f.cols
  gap : f'.gapOpt = f.gapOpt
  width : f'.colWidth = f.colWidth
  colsGap : f'.colsGap = f.colsGap

theorem SameShape.refl (f : CBox σ) : SameShape f f := ⟨rfl, rfl, rfl, rfl⟩

theorem SameShape.trans {f g h : CBox σ} (a : SameShape f g) (b : SameShape g h) : SameShape f h :=
  ⟨b.cols.trans a.cols, b.gap.trans a.gap, b.width.trans a.width, b.colsGap.trans a.colsGap⟩

theorem SameShape.total {f g : CBox σ} (a : SameShape f g) : g.total = f.total := by
  rw [CBox.total, a.cols, a.width, a.colsGap, CBox.total]

theorem FlowIn.shape {f g : CBox σ} (a : FlowIn f g) : SameShape f g := ⟨a.frame.cols, a.frame.gapOpt, a.frame.colWidth, a.frame.colsGap⟩

theorem addDelayed_in (hk : KeepsIn area exec) (n k : Nat) {f f' : CBox σ} {w w' : COut P B C} {act : CAct} (hf : FrameIn one m R f) (hw : PartsIn area one R w.parts)
    (h : f.addDelayed exec n k w = .ok (act, f', w')) :
    FrameIn one m R f' ∧ PartsIn area one R w'.parts ∧ SameShape f f' := by
  induction n generalizing k f w with
  | zero => cases h
  | succ n ih =>
    rw [CBox.addDelayed] at h
    cases h1 : f.delayed[k]? with
    | none =>
      rw [h1] at h
      simp only [Except.ok.injEq, Prod.mk.injEq] at h
      obtain ⟨-, rfl, rfl⟩ := h
      exact ⟨hf, hw, .refl _⟩
    | some e =>
      rw [h1] at h
      simp only at h
      cases h2 : f.process exec w e with
      | error e => rw [h2] at h; cases h
      | ok q =>
        obtain ⟨a, e', f1, w1⟩ := q
        rw [h2] at h
        simp only at h
        obtain ⟨k1, k2, k3, k4⟩ := process_in hk hf (hf.delayed e (List.mem_of_getElem? h1) 0) hw h2
        have hf1 := k1.frameIn hf
        have hf2 : FrameIn one m R { f1 with delayed := replaceAt f1.delayed k a.delayed } :=
          { hf1 with delayed := replaceAt_mem hf1.delayed k4 }
        have hsh : SameShape f { f1 with delayed := replaceAt f1.delayed k a.delayed } := ⟨k1.shape.cols, k1.shape.gap, k1.shape.width, k1.shape.colsGap⟩
        by_cases hn : a.next = true
        · rw [if_pos hn] at h
          simp only [Except.ok.injEq, Prod.mk.injEq] at h
          obtain ⟨-, rfl, rfl⟩ := h
          exact ⟨hf2, k2, hsh⟩
        · rw [if_neg hn] at h
          obtain ⟨j1, j2, j3⟩ := ih _ hf2 k2 h
          exact ⟨j1, j2, hsh.trans j3⟩

/-- a stack of boxes, each as wide as a column of the next -/
inductive StackIn (one : Prop) (m : Rat) (R : Area) : List (CBox σ) → Prop
  | nil : StackIn one m R []
  | cons {f : CBox σ} {l : List (CBox σ)} (hf : FrameIn one m R f) (hl : ∀ p, l.head? = some p → f.total = p.colWidth) (h : StackIn one m R l) : StackIn one m R (f :: l)

theorem StackIn.head {f : CBox σ} {l : List (CBox σ)} (h : StackIn one m R (f :: l)) : FrameIn one m R f := by cases h; assumption
theorem StackIn.tail {f : CBox σ} {l : List (CBox σ)} (h : StackIn one m R (f :: l)) : StackIn one m R l := by cases h; assumption
theorem StackIn.link {f : CBox σ} {l : List (CBox σ)} (h : StackIn one m R (f :: l)) : ∀ p, l.head? = some p → f.total = p.colWidth := by cases h; assumption

theorem StackIn.replace {f g : CBox σ} {l : List (CBox σ)} (h : StackIn one m R (f :: l)) (hg : FrameIn one m R g) (hs : SameShape f g) : StackIn one m R (g :: l) :=
  .cons hg (fun p hp => hs.total.trans (h.link p hp)) h.tail

/-- stacks of the same shape -/
abbrev SameShapes (a b : List (CBox σ)) : Prop := List.Forall₂ SameShape a b

theorem shapes_refl (a : List (CBox σ)) : SameShapes a a := by
  induction a with
  | nil => exact .nil
  | cons f a ih => exact .cons (.refl f) ih

theorem shapes_trans {a b c : List (CBox σ)} (h : SameShapes a b) (h' : SameShapes b c) : SameShapes a c := by
  induction h generalizing c with
  | nil => exact h'
  | cons h1 _ ih => cases h' with
    | cons k1 k2 => exact .cons (h1.trans k1) (ih k2)

theorem nextSection_in (parts : Nat) (stk : List (CBox σ)) (mem : Option (List (CMem σ))) (hm : ∀ l, mem = some l → ∀ q ∈ l, ∀ e ∈ q.delayed, FlatIn one m e)
    (hs : StackIn one m R stk) : StackIn one m R (nextSection parts mem stk).2 ∧ SameShapes stk (nextSection parts mem stk).2 ∧
      ∀ x y, (nextSection parts mem stk).1 = .pos x y → R.left ≤ x ∧ y ≤ R.top ∧ ∀ f, stk.head? = some f → x + f.colWidth ≤ R.right := by
  induction stk generalizing mem with
  | nil => simp only [nextSection]; exact ⟨hs, .nil, by simp⟩
  | cons f anc ih =>
    have hf := hs.head
    have hmem : ∀ q ∈ mem.getD [], ∀ e ∈ q.delayed, FlatIn one m e := by
      cases mem with
      | none => simp
      | some l => exact hm l rfl
    have hrfl := shapes_refl anc
    have hcols : 0 < f.cols := lt_of_le_of_lt (Nat.zero_le _) hf.column
    simp only [nextSection]
    split
    · split
      · rename_i hr
        have hno : one → False := fun ho => by have := (hf.floor ho).2.2.2; rw [this] at hr; cases hr
        exact ⟨hs.replace { hf with floor := fun ho => (hno ho).elim } ⟨rfl, rfl, rfl, rfl⟩, .cons ⟨rfl, rfl, rfl, rfl⟩ hrfl, by simp⟩
      · have hf2 : FrameIn one m R { f with sectionIndex := f.index, sectionDelayed := f.delayed, childrenMemory := mem.getD [] } :=
          { hf with section_ := hf.delayed, memory := hmem }
        split
        · exact ⟨hs.replace hf2 ⟨rfl, rfl, rfl, rfl⟩, .cons ⟨rfl, rfl, rfl, rfl⟩ .nil, by simp⟩
        · obtain ⟨h2, h3, h4⟩ := ih (some (mem.getD [] ++ [⟨f.index, f.delayed⟩])) (by
            intro l hl q hm2
            cases hl
            rcases List.mem_append.1 hm2 with h | h
            · exact hmem q h
            · simp only [List.mem_singleton] at h
              subst h
              exact hf.delayed) hs.tail
          have hlink : ∀ anc' : List (CBox σ), SameShapes anc anc' → ∀ p, anc'.head? = some p → f.total = p.colWidth := by
            intro anc' ha p hp
            cases ha with
            | nil => cases hp
            | cons a1 _ => cases hp; rw [hs.link _ rfl, a1.width]
          split
          · rename_i x y anc' heq
            rw [heq] at h2 h3 h4
            obtain ⟨p1, p2, p3⟩ := h4 x y rfl
            simp only at h2 h3
            have hanc : ∃ p l, anc = p :: l := by
              cases anc with
              | nil => simp [nextSection] at heq
              | cons p l => exact ⟨p, l, rfl⟩
            obtain ⟨p, l, rfl⟩ := hanc
            have hx : x + f.total ≤ R.right := by rw [hs.link p rfl]; exact p3 p rfl
            refine ⟨.cons { hf2 with left := p1, right := hx, column := hcols, top := p2, y := p2 } (hlink anc' h3) h2, .cons ⟨rfl, rfl, rfl, rfl⟩ h3, ?_⟩
            intro x' y' he
            split at he
            · cases he
            · cases he
              refine ⟨p1, p2, ?_⟩
              intro f' hf'
              cases hf'
              have hc : (1 : Rat) ≤ f.cols := by exact_mod_cast hcols
              have e1 : 0 ≤ ((f.cols : Rat) - 1) * (f.colWidth + f.colsGap) := mul_nonneg (by linarith) (add_nonneg (le_trans hf.least hf.width) hf.gap)
              unfold CBox.total at hx
              linarith
          · rename_i r anc' hne heq
            rw [heq] at h2 h3 h4
            refine ⟨.cons hf2 (hlink anc' h3) h2, .cons ⟨rfl, rfl, rfl, rfl⟩ h3, ?_⟩
            intro x y he
            simp only at he
            exact (hne x y he).elim
    · rename_i hcol
      have hc : f.column + 1 < f.cols := lt_of_le_of_ne hf.column hcol
      have hno : one → False := fun ho => by have := (hf.floor ho).1; omega
      have hf3 : FrameIn one m R { f with column := f.column + 1, starting := true, y := f.minY } := { hf with column := hc, y := hf.top }
      split
      · exact ⟨hs.replace { hf3 with partly := hm } ⟨rfl, rfl, rfl, rfl⟩, .cons ⟨rfl, rfl, rfl, rfl⟩ hrfl, by simp⟩
      · refine ⟨hs.replace hf3 ⟨rfl, rfl, rfl, rfl⟩, .cons ⟨rfl, rfl, rfl, rfl⟩ hrfl, ?_⟩
        intro x y he
        simp only at he
        split at he
        · cases he
        · cases he
          obtain ⟨c1, c2⟩ := hf3.col
          refine ⟨c1, hf.top, ?_⟩
          intro f' hf'
          cases hf'
          exact c2

theorem reset_in {f : CBox σ} {w : COut P B C} (hno : one → False) (hf : FrameIn one m R f) (hw : PartsIn area one R w.parts) :
    FrameIn one m R (f.reset w).2.1 ∧ PartsIn area one R (f.reset w).2.2.parts ∧ SameShape f (f.reset w).2.1 := by
  have hcols : 0 < f.cols := lt_of_le_of_lt (Nat.zero_le _) hf.column
  unfold CBox.reset
  split
  · exact ⟨hf, hw, .refl _⟩
  · refine ⟨?_, ?_, ?_⟩
    · simp only
      split <;> exact { hf with column := hcols, y := hf.top, delayed := hf.section_, floor := fun ho => (hno ho).elim }
    · intro p hm
      exact hw p (List.mem_of_mem_take hm)
    · simp only
      split <;> exact ⟨rfl, rfl, rfl, rfl⟩

theorem breakAct_in {f : CBox σ} {anc : List (CBox σ)} {w : COut P B C} (hs : StackIn one m R (f :: anc)) (hw : PartsIn area one R w.parts) :
    StackIn one m R (breakAct f anc w).2.1 ∧ PartsIn area one R (breakAct f anc w).2.2.parts ∧ SameShapes (f :: anc) (breakAct f anc w).2.1 := by
  unfold breakAct
  split
  · rename_i hr
    have hno : one → False := fun ho => by
      obtain ⟨-, -, a, b⟩ := hs.head.floor ho
      rw [a, b] at hr
      simp at hr
    obtain ⟨k1, k2, k3⟩ := reset_in (area := area) hno hs.head hw
    exact ⟨hs.replace k1 k3, k2, .cons k3 (shapes_refl _)⟩
  · exact ⟨hs, hw, shapes_refl _⟩

theorem answerAct_in (a : CAct) {stk : List (CBox σ)} {w : COut P B C} (hs : StackIn one m R stk) (hw : PartsIn area one R w.parts) :
    StackIn one m R (answerAct a stk w).2.1 ∧ PartsIn area one R (answerAct a stk w).2.2.parts ∧ SameShapes stk (answerAct a stk w).2.1 := by
  unfold answerAct
  cases stk with
  | nil => exact ⟨hs, hw, .nil⟩
  | cons f anc =>
    cases a with
    | brk => exact breakAct_in hs hw
    | next =>
      have h := nextSection_in w.parts.length (f :: anc) none (by simp) hs
      simp only
      split
      · rename_i g anc' heq
        rw [heq] at h
        obtain ⟨b1, b2, b3⟩ := breakAct_in h.1 hw
        exact ⟨b1, b2, shapes_trans h.2.1 b3⟩
      · rename_i stk' heq
        rw [heq] at h
        exact ⟨h.1, hw, h.2.1⟩
      · rename_i stk' heq
        rw [heq] at h
        exact ⟨h.1, hw, h.2.1⟩
      · rename_i r stk' _ _ _ heq
        rw [heq] at h
        exact ⟨h.1, hw, h.2.1⟩
    | interrupt => exact ⟨hs, hw, shapes_refl _⟩
    | partialNext => exact ⟨hs, hw, shapes_refl _⟩
    | cont => exact ⟨hs, hw, shapes_refl _⟩
    | retry => exact ⟨hs, hw, shapes_refl _⟩

theorem startResetting_in (hno : one → False) (stk : List (CBox σ)) (hs : StackIn one m R stk) : StackIn one m R (startResetting stk) ∧ SameShapes stk (startResetting stk) := by
  induction stk with
  | nil => exact ⟨hs, .nil⟩
  | cons f anc ih =>
    have hf := hs.head
    have hf' : FrameIn one m R { f with willReset := true } := { hf with floor := fun ho => (hno ho).elim }
    cases anc with
    | nil => exact ⟨hs.replace hf' ⟨rfl, rfl, rfl, rfl⟩, .cons ⟨rfl, rfl, rfl, rfl⟩ .nil⟩
    | cons p anc =>
      simp only [startResetting]
      split
      · obtain ⟨i1, i2⟩ := ih hs.tail
        refine ⟨.cons hf ?_ i1, .cons (.refl _) i2⟩
        intro q hq
        generalize startResetting (p :: anc) = r at i2 hq
        cases i2 with
        | cons a1 _ => cases hq; rw [hs.link p rfl, a1.width]
      · exact ⟨hs.replace hf' ⟨rfl, rfl, rfl, rfl⟩, .cons ⟨rfl, rfl, rfl, rfl⟩ (shapes_refl _)⟩

theorem newChild_in {f : CBox σ} (hf : FrameIn one m R f) {cols : Nat} {gap : Option Rat} {els : List (CEl σ)} {st : CStyle} (last : Bool) (parts : Nat)
    (he : ElIn one m f.colWidth (.child cols gap els st)) :
    FrameIn one m R (f.newChild cols gap els st last parts).1 ∧ FrameIn one m R (f.newChild cols gap els st last parts).2 ∧ SameShape f (f.newChild cols gap els st last parts).1 ∧
      (f.newChild cols gap els st last parts).2.total = f.colWidth ∧ (f.newChild cols gap els st last parts).2.colWidth = columnWidth cols gap f.colWidth := by
  cases he with
  | child h hc hg ho hw he =>
  have hd := descend_in f (top := true) h.1 hf.last
  have hf1 := hd.frameIn hf
  have hwd := hd.frame.colWidth
  have mem_last : ∀ (l : List (CMem σ)) (q : CMem σ), l.getLast? = some q → q ∈ l := fun l q h => List.mem_of_getLast? h
  have mem_drop : ∀ (l : List (CMem σ)) (q : CMem σ), q ∈ l.dropLast → q ∈ l := fun l q h => (List.dropLast_sublist l).subset h
  have hcq : (cols : Rat) ≠ 0 := by exact_mod_cast (by omega : cols ≠ 0)
  have htot : ((CBox.blank cols gap els last).setup (f.descend st true).colX (f.descend st true).colWidth (f.descend st true).y (f.descend st true).maxY parts).total = f.colWidth := by
    rw [← hwd]
    simp only [CBox.total, CBox.setup, CBox.blank]
    field_simp
    ring
  have hcw : ((CBox.blank cols gap els last).setup (f.descend st true).colX (f.descend st true).colWidth (f.descend st true).y (f.descend st true).maxY parts).colWidth =
      columnWidth cols gap f.colWidth := by
    rw [← hwd]
    rfl
  have hcol := hf1.col
  have hy := hf1.y
  have hfl := hf1.floor
  have hch : FrameIn one m R ((CBox.blank cols gap els last).setup (f.descend st true).colX (f.descend st true).colWidth (f.descend st true).y (f.descend st true).maxY parts) := by
    refine ⟨hcol.1, ?_, hc, hf.least, ?_, ?_, hy, hy, le_refl _, fun h1 => ⟨ho h1, (hfl h1).2.1, rfl, rfl⟩, ?_, (by intro e h; cases h), (by intro e h; cases h), (by intro e h; cases h),
      (by intro l hl; cases hl)⟩
    · rw [htot, ← hwd]
      exact hcol.2
    · rw [hcw]; exact hw
    · simp only [CBox.setup, CBox.blank]
      cases gap with
      | none => exact le_trans (by norm_num) (le_max_right _ _)
      | some g => exact hg g rfl
    · rw [hcw]
      exact he
  have hmemo : ∀ (q : CMem σ) (rest : List (CMem σ)), (∀ e ∈ q.delayed, FlatIn one m e) → (∀ r ∈ rest, ∀ e ∈ r.delayed, FlatIn one m e) →
      FrameIn one m R { (CBox.blank cols gap els last).setup (f.descend st true).colX (f.descend st true).colWidth (f.descend st true).y (f.descend st true).maxY parts with
        sectionIndex := q.index, sectionDelayed := q.delayed, index := q.index, delayed := q.delayed, childrenMemory := rest } := fun q rest h1 h2 =>
    { hch with section_ := h1, delayed := h1, memory := h2 }
  unfold CBox.newChild
  simp only
  split
  · rename_i q hm
    split at hm
    · have hm' := hf1.memory q (mem_last _ _ hm)
      exact ⟨{ hf1 with partly := by intro l hl; cases hl }, hmemo q _ hm' fun r hr => hf1.memory r (mem_drop _ _ hr), ⟨hd.shape.cols, hd.shape.gap, hd.shape.width, hd.shape.colsGap⟩, htot, hcw⟩
    · cases hm
  · split
    · rename_i q hm
      cases hp : (f.descend st true).partialMemory with
      | none => rw [hp] at hm; cases hm
      | some l =>
        rw [hp] at hm
        have hm' := hf1.partly l hp q (mem_last _ _ hm)
        exact ⟨{ hf1 with partly := by intro l hl; cases hl }, hmemo q _ hm' fun r hr => hf1.partly l hp r (mem_drop _ _ hr), ⟨hd.shape.cols, hd.shape.gap, hd.shape.width, hd.shape.colsGap⟩, htot, hcw⟩
    · exact ⟨hf1, hch, hd.shape, htot, hcw⟩

theorem run_in (hk : KeepsIn area exec) (n : Nat) :
    (∀ (stk stk' : List (CBox σ)) (w w' : COut P B C) (a : CAct), StackIn one m R stk → PartsIn area one R w.parts → contentRun exec n stk w = .ok (a, stk', w') →
      StackIn one m R stk' ∧ PartsIn area one R w'.parts ∧ SameShapes stk stk') ∧
    (∀ (stk stk' : List (CBox σ)) (w w' : COut P B C) (a : CAct), StackIn one m R stk → PartsIn area one R w.parts → contentElements exec n stk w = .ok (a, stk', w') →
      StackIn one m R stk' ∧ PartsIn area one R w'.parts ∧ SameShapes stk stk') := by
  induction n with
  | zero =>
    constructor
    · intro stk stk' w w' a _ _ h
      rw [contentRun] at h; cases h
    · intro stk stk' w w' a _ _ h
      rw [contentElements] at h; cases h
  | succ n ih =>
    obtain ⟨ih1, ih2⟩ := ih
    constructor
    · intro stk stk' w w' a hs hw h
      cases stk with
      | nil => simp [contentRun] at h
      | cons f anc =>
        rw [contentRun] at h
        cases hd : f.addDelayed exec n 0 w with
        | error e => rw [hd] at h; cases h
        | ok q =>
          obtain ⟨a1, f1, w1⟩ := q
          rw [hd] at h
          obtain ⟨k1, k2, ks⟩ := addDelayed_in hk n 0 hs.head hw hd
          have k3 := answerAct_in a1 (hs.replace k1 ks) k2
          simp only at h
          have ks' : SameShapes (f :: anc) (f1 :: anc) := .cons ks (shapes_refl anc)
          generalize answerAct a1 (f1 :: anc) w1 = r1 at h k3
          obtain ⟨a2, stk2, w2⟩ := r1
          obtain ⟨k3, k4, k5⟩ := k3
          simp only at k3 k4 k5
          replace k5 := shapes_trans ks' k5
          have again : ∀ {stk2 : List (CBox σ)} {w2 : COut P B C}, StackIn one m R stk2 → PartsIn area one R w2.parts → SameShapes (f :: anc) stk2 →
              contentRun exec n stk2 w2 = .ok (a, stk', w') → StackIn one m R stk' ∧ PartsIn area one R w'.parts ∧ SameShapes (f :: anc) stk' := by
            intro stk2 w2 e1 e2 e3 e4
            obtain ⟨i1, i2, i3⟩ := ih1 _ _ _ _ _ e1 e2 e4
            exact ⟨i1, i2, shapes_trans e3 i3⟩
          split at h
          · rename_i heq
            cases heq
            exact again k3 k4 k5 h
          · rename_i heq
            cases heq
            cases h
            exact ⟨k3, k4, k5⟩
          · rename_i heq
            cases heq
            cases h
            exact ⟨k3, k4, k5⟩
          · rename_i heq
            cases heq
            cases h
            exact ⟨k3, k4, k5⟩
          · rename_i heq
            cases heq
            cases he : contentElements exec n stk2 w2 with
            | error e => rw [he] at h; cases h
            | ok q =>
              obtain ⟨a3, stk3, w3⟩ := q
              rw [he] at h
              obtain ⟨j5, j6, j7⟩ := ih2 _ _ _ _ _ k3 k4 he
              have k7 := answerAct_in a3 j5 j6
              simp only at h
              generalize answerAct a3 stk3 w3 = r3 at h k7
              obtain ⟨a4, stk4, w4⟩ := r3
              obtain ⟨k7, k8, k9⟩ := k7
              simp only at k7 k8 k9
              replace k9 := shapes_trans k5 (shapes_trans j7 k9)
              split at h
              · rename_i heq
                cases heq
                exact again k7 k8 k9 h
              · rename_i heq
                cases heq
                cases h
                exact ⟨k7, k8, k9⟩
              · rename_i heq
                cases heq
                cases h
                exact ⟨k7, k8, k9⟩
              · rename_i heq
                cases heq
                cases h
                exact ⟨k7, k8, k9⟩
              · rename_i heq
                cases heq
                cases h
                exact ⟨k7, k8, k9⟩
              · rename_i f5 anc5 w5 _ _ _ _ heq
                obtain ⟨-, rfl, rfl⟩ : a4 = a4 ∧ stk4 = f5 :: anc5 ∧ w4 = w5 := by
                  simp only [Prod.mk.injEq] at heq
                  exact ⟨rfl, heq.2.1, heq.2.2⟩
                split at h
                · exact again k7 k8 k9 h
                · split at h
                  · rename_i hcond
                    have hno : one → False := fun ho => by have := (k7.head.floor ho).1; omega
                    split at h
                    · cases h
                      exact ⟨k7, k8, k9⟩
                    · obtain ⟨s1, s2⟩ := startResetting_in hno _ k7
                      split at h
                      · rename_i heq6
                        rw [heq6] at s2
                        cases s2
                      · rename_i f6 anc6 heq6
                        rw [heq6] at s1 s2
                        split at h
                        · obtain ⟨j1, j2, j3⟩ := reset_in (area := area) hno s1.head k8
                          exact again (s1.replace j1 j3) j2 (shapes_trans k9 (shapes_trans s2 (.cons j3 (shapes_refl _)))) h
                        · cases h
                          exact ⟨s1, k8, shapes_trans k9 s2⟩
                  · split at h
                    · rename_i hres
                      have h5 := k7.head
                      have hno : one → False := fun ho => by have := (h5.floor ho).2.2.2; rw [this] at hres; cases hres
                      have h6 : FrameIn one m R { f5 with forward := false } := { h5 with floor := fun ho => (hno ho).elim }
                      obtain ⟨j1, j2, j3⟩ := reset_in (f := { f5 with forward := false }) (area := area) hno h6 k8
                      have j4 : SameShape f5 (CBox.reset { f5 with forward := false } w4).2.1 := ⟨j3.cols, j3.gap, j3.width, j3.colsGap⟩
                      split at h
                      · exact again (k7.replace j1 j4) j2 (shapes_trans k9 (.cons j4 (shapes_refl _))) h
                      · cases h
                        exact ⟨k7.replace j1 j4, j2, shapes_trans k9 (.cons j4 (shapes_refl _))⟩
                    · cases h
                      exact ⟨k7, k8, k9⟩
    · intro stk stk' w w' a hs hw h
      cases stk with
      | nil => simp [contentElements] at h
      | cons f anc =>
        rw [contentElements] at h
        have hf := hs.head
        split at h
        · cases h
          exact ⟨hs, hw, shapes_refl _⟩
        · rename_i cols gap els st he
          have hels := hf.elements _ (List.mem_of_getElem? he)
          split at h
          · cases h
          · obtain ⟨k1, k2, k3, k4, k5⟩ := newChild_in hf (decide (f.index + 1 = f.elements.length)) w.parts.length hels
            have hstk : StackIn one m R ((f.newChild cols gap els st (decide (f.index + 1 = f.elements.length)) w.parts.length).2 ::
                (f.newChild cols gap els st (decide (f.index + 1 = f.elements.length)) w.parts.length).1 :: anc) :=
              .cons k2 (fun p hp => by cases hp; rw [k4, k3.width]) (hs.replace k1 k3)
            simp only at h
            split at h
            · cases h
            · rename_i a1 c1 f1 anc1 w1 hr
              obtain ⟨j1, j2, j3⟩ := ih1 _ _ _ _ _ hstk hw hr
              have hc := j1.head
              have hf1 := j1.tail.head
              cases j3 with
              | cons s1 s2 => cases s2 with
                | cons s2 s3 =>
                have w1' : c1.colWidth = columnWidth cols gap f1.colWidth := by rw [s1.width, k5, s2.width, k3.width]
                have hch : ElIn one m f1.colWidth (.child cols gap c1.elements st) := by
                  have e1 : f1.colWidth = f.colWidth := by rw [s2.width, k3.width]
                  cases hels with
                  | child q1 q2 q3 q4 q5 q6 =>
                    refine .child q1 q2 q3 q4 (by rw [e1]; exact q5) ?_
                    rw [← w1']
                    exact hc.elements
                have hst : 0 ≤ st.bottom := by cases hels with | child q1 => exact q1.2
                have hf2 : FrameIn one m R { f1 with elements := f1.elements.set f1.index (.child cols gap c1.elements st) } :=
                  { hf1 with elements := set_mem hf1.elements hch }
                have hf3 : FrameIn one m R (if a1 = .partialNext then { f1 with elements := f1.elements.set f1.index (.child cols gap c1.elements st) }
                    else CBox.childTook { f1 with elements := f1.elements.set f1.index (.child cols gap c1.elements st) } c1 f.y st) ∧
                    SameShape f (if a1 = .partialNext then { f1 with elements := f1.elements.set f1.index (.child cols gap c1.elements st) }
                    else CBox.childTook { f1 with elements := f1.elements.set f1.index (.child cols gap c1.elements st) } c1 f.y st) := by
                  have sh := k3.trans s2
                  split
                  · exact ⟨hf2, ⟨sh.cols, sh.gap, sh.width, sh.colsGap⟩⟩
                  · unfold CBox.childTook CBox.took
                    generalize (c1.minY - if c1.cols > 1 then c1.maxY else c1.y) = hgt
                    split
                    · rename_i hh
                      have hy := hf2.y
                      refine ⟨{ hf2 with y := ?_, last := hst }, ⟨sh.cols, sh.gap, sh.width, sh.colsGap⟩⟩
                      simp only at hy ⊢
                      linarith
                    · exact ⟨{ hf2 with y := hf.y }, ⟨sh.cols, sh.gap, sh.width, sh.colsGap⟩⟩
                generalize (if a1 = .partialNext then { f1 with elements := f1.elements.set f1.index (.child cols gap c1.elements st) }
                    else CBox.childTook { f1 with elements := f1.elements.set f1.index (.child cols gap c1.elements st) } c1 f.y st) = f3 at h hf3
                obtain ⟨hf3, hsh⟩ := hf3
                have hst3 : ∀ g : CBox σ, FrameIn one m R g → SameShape f g → StackIn one m R (g :: anc1) := by
                  intro g hg hsg
                  refine .cons hg (fun p hp => ?_) j1.tail.tail
                  rw [← j1.tail.link p hp, hsg.total, ← (k3.trans s2).total]
                split at h
                · cases h
                  exact ⟨hst3 f3 hf3 hsh, j2, .cons hsh s3⟩
                · obtain ⟨i1, i2, i3⟩ := ih2 _ _ _ _ _ (hst3 { f3 with starting := false, index := f3.index + 1 } { hf3 with } ⟨hsh.cols, hsh.gap, hsh.width, hsh.colsGap⟩) j2 h
                  have hsh' : SameShape f { f3 with starting := false, index := f3.index + 1 } := ⟨hsh.cols, hsh.gap, hsh.width, hsh.colsGap⟩
                  exact ⟨i1, i2, shapes_trans (.cons hsh' s3) i3⟩
            · rename_i a1 stk1 w1 hne hr
              obtain ⟨j1, j2, j3⟩ := ih1 _ _ _ _ _ hstk hw hr
              cases j3 with
              | cons s1 s2 => cases s2 with
                | cons s2 s3 => exact (hne _ _ _ rfl).elim
        · rename_i e _ he
          have hse := hf.elements _ (List.mem_of_getElem? he)
          split at h
          · cases h
          · rename_i a1 e1 f1 w1 hp
            obtain ⟨j1, j2, j3, j4⟩ := process_in hk hf hse hw hp
            have hf1 := j1.frameIn hf
            have hf2 : FrameIn one m R { f1 with elements := f1.elements.set f1.index e1, index := f1.index + 1, delayed := f1.delayed ++ a1.delayed.toList } := by
              refine { hf1 with elements := set_mem hf1.elements (j3 _), delayed := ?_ }
              intro d hd
              rcases List.mem_append.1 hd with hd | hd
              · exact hf1.delayed d hd
              · exact j4 d hd
            have hsh : SameShape f { f1 with elements := f1.elements.set f1.index e1, index := f1.index + 1, delayed := f1.delayed ++ a1.delayed.toList } :=
              ⟨j1.shape.cols, j1.shape.gap, j1.shape.width, j1.shape.colsGap⟩
            simp only at h
            split at h
            · cases h
              exact ⟨hs.replace hf2 hsh, j2, .cons hsh (shapes_refl _)⟩
            · obtain ⟨i1, i2, i3⟩ := ih2 _ _ _ _ _ (hs.replace hf2 hsh) j2 h
              exact ⟨i1, i2, shapes_trans (.cons hsh (shapes_refl _)) i3⟩

end

/-- between two rectangles of the same width -/
structure ContentIn (one : Prop) (m W : Rat) (s : CContent σ P B C) : Prop where
  cols : 0 < s.cols
  one_ : one → s.cols = 1
  gap : ∀ g, s.gap = some g → 0 ≤ g
  least : 0 ≤ m
  width : m ≤ columnWidth s.cols s.gap W
  elements : ∀ e ∈ s.elements, ElIn one m (columnWidth s.cols s.gap W) e
  box : ∀ f, s.box = some f → f.cols = s.cols ∧ f.gapOpt = s.gap ∧ (∀ e ∈ f.elements, ElIn one m (columnWidth s.cols s.gap W) e) ∧ (∀ e ∈ f.sectionDelayed, FlatIn one m e) ∧
    (∀ q ∈ f.childrenMemory, ∀ e ∈ q.delayed, FlatIn one m e) ∧ ∀ l, f.partialMemory = some l → ∀ q ∈ l, ∀ e ∈ q.delayed, FlatIn one m e

theorem setup_in {one : Prop} {m W x y h : Rat} {cols : Nat} {gap : Option Rat} (f : CBox σ) (hc : f.cols = cols) (hg : f.gapOpt = gap) (h0 : 0 < cols) (h1 : one → cols = 1)
    (h2 : ∀ g, gap = some g → 0 ≤ g) (h3 : 0 ≤ m) (h4 : m ≤ columnWidth cols gap W) (h5 : ∀ e ∈ f.elements, ElIn one m (columnWidth cols gap W) e)
    (h6 : ∀ e ∈ f.sectionDelayed, FlatIn one m e) (h7 : ∀ q ∈ f.childrenMemory, ∀ e ∈ q.delayed, FlatIn one m e)
    (h8 : ∀ l, f.partialMemory = some l → ∀ q ∈ l, ∀ e ∈ q.delayed, FlatIn one m e) : FrameIn one m ⟨x, x + W, y, y - h⟩ (f.setup x W y (y - h) 0) := by
  subst hc hg
  have hcq : (f.cols : Rat) ≠ 0 := by exact_mod_cast (by omega : f.cols ≠ 0)
  refine ⟨le_refl _, ?_, h0, h3, h4, ?_, le_refl _, le_refl _, le_refl _, fun ho => ⟨h1 ho, le_refl _, rfl, rfl⟩, h5, h6, h6, h7, h8⟩
  · have : (f.setup x W y (y - h) 0).total = W := by
      simp only [CBox.total, CBox.setup]
      field_simp
      ring
    rw [this]
    exact le_refl _
  · simp only [CBox.setup]
    cases hgo : f.gapOpt with
    | none => exact le_trans (by norm_num) (le_max_right _ _)
    | some g => exact h2 g hgo

theorem content_run_in {exec : σ → Rat → Rat → Rat → Rat → Except PyErr (CellOut σ P B C)} {area : P → Area} {one : Prop} {m W : Rat} (hk : KeepsIn area exec)
    {s s' : CContent σ P B C} (hs : ContentIn one m W s) {fuel : Nat} {x y h : Rat} (hr : s.run exec fuel x y W h = .ok s') :
    ContentIn one m W s' ∧ PartsIn area one ⟨x, x + W, y, y - h⟩ s'.out.parts := by
  unfold CContent.run at hr
  split at hr
  · cases hr
  · simp only at hr
    have hbox : FrameIn one m ⟨x, x + W, y, y - h⟩ ((s.box.getD (CBox.blank s.cols s.gap s.elements true)).setup x W y (y - h) 0) := by
      cases hb : s.box with
      | none => exact setup_in _ rfl rfl hs.cols hs.one_ hs.gap hs.least hs.width hs.elements (by intro e h; cases h) (by intro e h; cases h) (by intro l hl; cases hl)
      | some f =>
        obtain ⟨b1, b2, b3, b4, b5, b6⟩ := hs.box f hb
        exact setup_in _ b1 b2 hs.cols hs.one_ hs.gap hs.least hs.width b3 b4 b5 b6
    have hco : ((s.box.getD (CBox.blank s.cols s.gap s.elements true)).setup x W y (y - h) 0).cols = s.cols ∧
        ((s.box.getD (CBox.blank s.cols s.gap s.elements true)).setup x W y (y - h) 0).gapOpt = s.gap := by
      cases hb : s.box with
      | none => exact ⟨rfl, rfl⟩
      | some f =>
        obtain ⟨b1, b2, -⟩ := hs.box f hb
        exact ⟨b1, b2⟩
    have hwd : ((s.box.getD (CBox.blank s.cols s.gap s.elements true)).setup x W y (y - h) 0).colWidth = columnWidth s.cols s.gap W := by
      cases hb : s.box with
      | none => rfl
      | some f =>
        obtain ⟨b1, b2, -⟩ := hs.box f hb
        rw [← b1, ← b2]
        rfl
    generalize (s.box.getD (CBox.blank s.cols s.gap s.elements true)).setup x W y (y - h) 0 = f0 at hr hbox hco hwd
    split at hr
    · cases hr
    · rename_i a f1 l1 w1 h1
      cases hr
      obtain ⟨k1, k2, k3⟩ := (run_in hk fuel).1 _ _ _ _ _ (.cons hbox (by intro p hp; cases hp) .nil) (by intro p hp; cases hp) h1
      cases k3 with
      | cons s1 s2 =>
      have hf := k1.head
      refine ⟨⟨hs.cols, hs.one_, hs.gap, hs.least, hs.width, hs.elements, ?_⟩, k2⟩
      intro f hf'
      cases hf'
      refine ⟨s1.cols.trans hco.1, s1.gap.trans hco.2, ?_, hf.section_, hf.memory, hf.partly⟩
      rw [← hwd, ← s1.width]
      exact hf.elements
    · cases hr


/-- contents that are not higher than the rectangle keep to it -/
theorem keeps_in {area : P → Area} {exec : σ → Rat → Rat → Rat → Rat → Except PyErr (CellOut σ P B C)} (h : KeepsArea area exec) : KeepsIn area exec := by
  intro c x y w ht o ho p hp hs
  obtain ⟨h1, h2⟩ := h c x y w ht o ho
  obtain ⟨k1, k2, k3, k4⟩ := h2 p hp
  simp only [Area.Seen] at hs
  simp only at k1 k2 k3 k4
  exact ⟨k1, k2, k3, by have := h1 (by linarith); simp only; linarith⟩

theorem content_runs_in {exec : σ → Rat → Rat → Rat → Rat → Except PyErr (CellOut σ P B C)} {area : P → Area} {one : Prop} {m W : Rat} (hk : KeepsIn area exec) (fuel : Nat)
    (rects : List (Rat × Rat × Rat × Rat)) (hW : ∀ r ∈ rects, r.2.2.1 = W) : ∀ (s s' : CContent σ P B C) (ps : List (CPart P)), ContentIn one m W s →
    s.runs exec fuel rects = .ok (ps, s') → ContentIn one m W s' := by
  induction rects with
  | nil =>
    intro s s' ps hs h
    cases h
    exact hs
  | cons q l ih =>
    obtain ⟨x, y, w, ht⟩ := q
    intro s s' ps hs h
    obtain rfl : w = W := hW (x, y, w, ht) (by simp)
    rw [CContent.runs] at h
    split at h
    · cases h
      exact hs
    · split at h
      · cases h
      · rename_i s1 h1
        split at h
        · cases h
        · rename_i ps2 s2 h2
          cases h
          exact ih (fun r hr => hW r (by simp [hr])) _ _ _ (content_run_in hk hs h1).1 h2

/-- C85: whatever a content box of any number of columns shows in a rectangle, after any number of rectangles of that width before, is between the left and the right side of
the rectangle and not above its top. Its elements keep to the rectangles they get themselves, and all the columns have at least the width `m`, in which the margins of the
images leave room. -/
theorem C85_sides (area : P → Area) (exec : σ → Rat → Rat → Rat → Rat → Except PyErr (CellOut σ P B C)) (hexec : KeepsIn area exec) (m W : Rat) (hm : 0 ≤ m)
    (cols : Nat) (gap : Option Rat) (els : List (CEl σ)) (hbox : ElIn False m W (.child cols gap els ⟨0, 0, 0, 0, none, false, .flow⟩)) (fuel : Nat)
    (before : List (Rat × Rat × Rat × Rat)) (hbefore : ∀ r ∈ before, r.2.2.1 = W) (ps : List (CPart P)) (s s' : CContent σ P B C)
    (hruns : (CContent.new cols gap els).runs exec fuel before = .ok (ps, s)) (x y h : Rat) (hrun : s.run exec fuel x y W h = .ok s') :
    ∀ p ∈ s'.out.parts, (cArea area p).Seen → x ≤ (cArea area p).left ∧ (cArea area p).right ≤ x + W ∧ (cArea area p).top ≤ y := by
  cases hbox with
  | child _ hc hg _ hw he =>
    have h0 : ContentIn False m W (CContent.new cols gap els : CContent σ P B C) := ⟨hc, False.elim, hg, hm, hw, he, by intro f hf; cases hf⟩
    have h1 := content_runs_in hexec fuel before hbefore _ _ _ h0 hruns
    intro p hp hs
    obtain ⟨k1, k2, k3, -⟩ := (content_run_in hexec h1 hrun).2 p hp hs
    exact ⟨k1, k2, k3⟩

theorem columnWidth_one (gap : Option Rat) (W : Rat) : columnWidth 1 gap W = W := by
  simp [columnWidth]

/-- with one column, elements fit in every width that is enough -/
theorem elIn_width {m W W' : Rat} {e : CEl σ} (h : ElIn True m W e) (hW : m ≤ W') : ElIn True m W' e := by
  induction h generalizing W' with
  | leaf h => exact .leaf h
  | image h => exact .image h
  | group h hl => exact .group h hl
  | child h hc hg ho hw he ih =>
    obtain rfl := ho trivial
    rw [columnWidth_one] at hw
    refine .child h hc hg (fun _ => rfl) (by rw [columnWidth_one]; exact hW) fun e hm => ?_
    exact ih e hm (by rw [columnWidth_one]; exact hW)

theorem ContentIn.rewidth {m W W' : Rat} {s : CContent σ P B C} (h : ContentIn True m W s) (hW : m ≤ W') : ContentIn True m W' s := by
  have hc := h.one_ trivial
  have e : ∀ V, columnWidth s.cols s.gap V = V := fun V => by rw [hc, columnWidth_one]
  refine ⟨h.cols, h.one_, h.gap, h.least, by rw [e]; exact hW, ?_, ?_⟩
  · intro el hel
    rw [e]
    exact elIn_width (h.elements el hel) hW
  · intro f hf
    obtain ⟨b1, b2, b3, b4⟩ := h.box f hf
    refine ⟨b1, b2, fun el hel => ?_, b4⟩
    rw [e]
    exact elIn_width (b3 el hel) hW

theorem content_runs_one {exec : σ → Rat → Rat → Rat → Rat → Except PyErr (CellOut σ P B C)} {area : P → Area} {m : Rat} (hk : KeepsIn area exec) (fuel : Nat)
    (rects : List (Rat × Rat × Rat × Rat)) (hW : ∀ r ∈ rects, m ≤ r.2.2.1) : ∀ (W : Rat) (s s' : CContent σ P B C) (ps : List (CPart P)), ContentIn True m W s →
    s.runs exec fuel rects = .ok (ps, s') → ContentIn True m W s' := by
  induction rects with
  | nil =>
    intro W s s' ps hs h
    cases h
    exact hs
  | cons q l ih =>
    obtain ⟨x, y, w, ht⟩ := q
    intro W s s' ps hs h
    have hm : m ≤ W := by
      have := hs.width
      rwa [hs.one_ trivial, columnWidth_one] at this
    rw [CContent.runs] at h
    split at h
    · cases h
      exact hs
    · split at h
      · cases h
      · rename_i s1 h1
        split at h
        · cases h
        · rename_i ps2 s2 h2
          cases h
          exact ih (fun r hr => hW r (by simp [hr])) _ _ _ _ ((content_run_in hk (hs.rewidth (hW (x, y, w, ht) (by simp))) h1).1.rewidth hm) h2

/-- C85: if it and the boxes in it have one column, it is not below the lower end of the rectangle either. Here the rectangles may have different widths. -/
theorem C85_rectangle (area : P → Area) (exec : σ → Rat → Rat → Rat → Rat → Except PyErr (CellOut σ P B C)) (hexec : KeepsIn area exec) (m W : Rat) (hm : 0 ≤ m)
    (cols : Nat) (gap : Option Rat) (els : List (CEl σ)) (hbox : ElIn True m W (.child cols gap els ⟨0, 0, 0, 0, none, false, .flow⟩)) (fuel : Nat)
    (before : List (Rat × Rat × Rat × Rat)) (hbefore : ∀ r ∈ before, m ≤ r.2.2.1) (ps : List (CPart P)) (s s' : CContent σ P B C)
    (hruns : (CContent.new cols gap els).runs exec fuel before = .ok (ps, s)) (x y h : Rat) (hrun : s.run exec fuel x y W h = .ok s') :
    ∀ p ∈ s'.out.parts, (cArea area p).Seen → (cArea area p).Within ⟨x, x + W, y, y - h⟩ := by
  cases hbox with
  | child _ hc hg ho hw he =>
    have h0 : ContentIn True m W (CContent.new cols gap els : CContent σ P B C) := ⟨hc, ho, hg, hm, hw, he, by intro f hf; cases hf⟩
    have h1 := content_runs_one hexec fuel before hbefore _ _ _ _ h0 hruns
    intro p hp hs
    obtain ⟨k1, k2, k3, k4⟩ := (content_run_in hexec h1 hrun).2 p hp hs
    exact ⟨k1, k2, k3, k4 trivial⟩

/-! ### a box -/

/-- the sides of what is shown, left, right, top and bottom -/
def blockBox (cols : Nat) (els : List (CEl Rat)) (W h : Rat) : Option (List (Rat × Rat × Rat × Rat)) :=
  match (CContent.new cols none els : CContent Rat Area Nat Nat).run blockExec 400 0 h W h with
  | .ok s => some (s.out.parts.map fun p => ((cArea id p).left, (cArea id p).right, (cArea id p).top, (cArea id p).bottom))
  | .error _ => none

/-- blocks and an image in a box that has two columns -/
def blockEls : List (CEl Rat) :=
  [.leaf 10 ⟨0, 5, 0, 0, none, false, .flow⟩, .child 2 none [.leaf 20 ⟨0, 5, 2, 3, none, false, .flow⟩, .image ⟨1, 100, 50, 0, ⟨0, 5, 4, 4, none, false, .flow⟩⟩]
    ⟨3, 5, 0, 0, none, false, .flow⟩, .leaf 15 ⟨0, 5, 0, 0, none, false, .flow⟩]

theorem blockEls_in : ElIn False 40 107 (.child 1 none blockEls ⟨0, 0, 0, 0, none, false, .flow⟩) := by
  have hw : columnWidth 1 none 107 = 107 := by norm_num [columnWidth]
  have hw2 : columnWidth 2 none 107 = 50 := by norm_num [columnWidth]
  have tidy : ∀ a b c d : Rat, 0 ≤ a → 0 ≤ b → 0 ≤ c → 0 ≤ d → StyleTidy ⟨a, b, c, d, none, false, .flow⟩ := fun a b c d h1 h2 h3 h4 => ⟨h1, h2, h3, h4⟩
  refine .child ⟨le_refl _, le_refl _⟩ (by norm_num) (by intro g hg; cases hg) False.elim (by rw [hw]; norm_num) ?_
  rw [hw]
  intro e he
  simp only [blockEls, List.mem_cons, List.not_mem_nil, or_false] at he
  rcases he with rfl | rfl | rfl
  · exact .leaf (tidy _ _ _ _ (by norm_num) (by norm_num) (by norm_num) (by norm_num))
  · refine .child ⟨by norm_num, by norm_num⟩ (by norm_num) (by intro g hg; cases hg) False.elim (by rw [hw2]; norm_num) ?_
    rw [hw2]
    intro e he
    simp only [List.mem_cons, List.not_mem_nil, or_false] at he
    rcases he with rfl | rfl
    · exact .leaf (tidy _ _ _ _ (by norm_num) (by norm_num) (by norm_num) (by norm_num))
    · exact .image ⟨tidy _ _ _ _ (by norm_num) (by norm_num) (by norm_num) (by norm_num), by norm_num, by norm_num, by norm_num, by intro q hq; cases hq⟩
  · exact .leaf (tidy _ _ _ _ (by norm_num) (by norm_num) (by norm_num) (by norm_num))

/-- the two columns of the inner box are beside each other, from 0 to 50 and from 57 to 107 -/
example : blockBox 1 blockEls 107 100 = some [(0, 107, 100, 90), (2, 47, 82, 62), (61, 103, 82, 61), (0, 107, 3575 / 64, 2615 / 64)] := by decide +kernel

example (s : CContent Rat Area Nat Nat) (hrun : (CContent.new 1 none blockEls).run blockExec 400 0 100 107 100 = .ok s) :
    ∀ p ∈ s.out.parts, (cArea id p).Seen → 0 ≤ (cArea id p).left ∧ (cArea id p).right ≤ 0 + 107 ∧ (cArea id p).top ≤ 100 :=
  C85_sides id blockExec (keeps_in block_keeps) 40 107 (by norm_num) 1 none blockEls blockEls_in 400 [] (by simp) [] _ s rfl 0 100 100 hrun

/-- C85 fails if the margins of an image are wider than the column: what follows is above the top, here 100, of the box -/
theorem C85_margins_false :
    blockBox 1 [.image ⟨1, 200, 100, 0, ⟨0, 0, 70, 50, none, false, .flow⟩⟩, .leaf 5 ⟨0, 0, 0, 0, none, false, .flow⟩] 100 100 =
      some [(70, 50, 100, 110), (0, 100, 110, 105)] := by decide +kernel

end Verif
