import Verif.Props.C38_Group
import Mathlib.Algebra.Order.Field.Basic
import Mathlib.Tactic.Ring
/-! C39: images keep their proportions and fit into their column. -/
namespace Verif
open Spec

variable {σ P B C : Type}

/-- a rectangle with lower left corner `x`, `y` that has the proportions of a picture of the given size -/
def Spec.Proportional (iw ih w h : Rat) : Prop := w * ih = h * iw

theorem fit_proportional {i : CImg} {x width room : Rat} {r : Rat × Rat × Rat} (hw : i.width ≠ 0) (hh : i.height ≠ 0) (h : i.fit x width room = some r) :
    Proportional i.width i.height r.2.1 r.2.2 := by
  unfold Proportional
  unfold CImg.fit at h
  simp only at h
  split at h
  · cases h
    simp only
    field_simp
  · split at h
    · cases h
    · split at h
      · cases h
        simp only
        field_simp
      · cases h

theorem fit_centred {i : CImg} {x width room : Rat} {r : Rat × Rat × Rat} (h : i.fit x width room = some r) :
    r.1 - x = x + width - (r.1 + r.2.1) := by
  unfold CImg.fit at h
  simp only at h
  split at h
  · cases h
    simp
  · split at h
    · cases h
    · split at h
      · cases h
        simp only
        ring
      · cases h

theorem fit_inside {i : CImg} {x width room : Rat} {r : Rat × Rat × Rat} (hw : 0 < i.width) (hh : 0 < i.height) (hx : 0 < width)
    (hm : ∀ m, i.style.minHeight = some m → 0 < m) (h : i.fit x width room = some r) :
    x ≤ r.1 ∧ r.1 + r.2.1 ≤ x + width ∧ 0 < r.2.1 ∧ 0 < r.2.2 ∧ r.2.2 ≤ room := by
  have hnat : 0 < width * i.height / i.width := by positivity
  unfold CImg.fit at h
  simp only at h
  split at h
  · rename_i hlt
    cases h
    exact ⟨le_refl _, le_refl _, hx, hnat, le_of_lt hlt⟩
  · rename_i hge
    split at h
    · cases h
    · rename_i m hmin
      split at h
      · rename_i hle
        have hm0 := hm m hmin
        have key : ∀ q : Rat, 0 < q → q ≤ room → q * i.width / i.height ≤ width := by
          intro q hq hqr
          rw [div_le_iff₀ hh]
          have h1 : room ≤ width * i.height / i.width := not_lt.1 hge
          rw [le_div_iff₀ hw] at h1
          have : q * i.width ≤ room * i.width := by
            exact mul_le_mul_of_nonneg_right hqr (le_of_lt hw)
          linarith
        have hq : 0 < (if i.style.shrink = true then m else room) ∧ (if i.style.shrink = true then m else room) ≤ room := by
          split
          · exact ⟨hm0, hle⟩
          · exact ⟨by linarith, le_refl _⟩
        cases h
        generalize (if i.style.shrink = true then m else room) = q at hq ⊢
        have hk := key q hq.1 hq.2
        have hp : 0 < q * i.width / i.height := by
          have := hq.1
          positivity
        refine ⟨?_, ?_, hp, hq.1, hq.2⟩
        · simp only
          linarith
        · simp only
          linarith
      · cases h

/-- C39 (partial): an image that is placed in a column has the proportions of the picture, is inside its column between the margins of its style and centred there, and its lower edge is not below
the column. This holds if the column is wider than the margins of the image and the least height, if given, is positive. Otherwise see
`C39_margins_false` and `C39_min_height_false`. -/
theorem C39_image_partial (exec : σ → Rat → Rat → Rat → Rat → Except PyErr (CellOut σ P B C)) (f f' : CBox σ) (w w' : COut P B C) (i : CImg) (e' : CEl σ) (a : CAns σ)
    (hw : 0 < i.width) (hh : 0 < i.height) (hx : i.style.left + i.style.right < f.colWidth) (hm : ∀ m, i.style.minHeight = some m → 0 < m)
    (h : f.process exec w (.image i) = .ok (a, e', f', w')) (ha : a.delayed = none) :
    ∃ x y width height, w'.parts = w.parts ++ [.image i.name x y width height] ∧ Proportional i.width i.height width height ∧ 0 < width ∧ 0 < height ∧
      f.colX + i.style.left ≤ x ∧ x + width ≤ f.colX + f.colWidth - i.style.right ∧
      x - (f.colX + i.style.left) = f.colX + f.colWidth - i.style.right - (x + width) ∧ f.maxY ≤ y := by
  unfold CBox.process at h
  simp only at h
  cases h1 : f.image w i true true with
  | error e => rw [h1] at h; cases h
  | ok q =>
    obtain ⟨r, f1, w1⟩ := q
    rw [h1] at h
    cases r with
    | some i' =>
      simp only [Except.ok.injEq, Prod.mk.injEq] at h
      rw [← h.1] at ha
      cases ha
    | none =>
      simp only [Except.ok.injEq, Prod.mk.injEq] at h
      obtain ⟨-, -, -, rfl⟩ := h
      have ff := descend_frame f i.style true
      unfold CBox.image at h1
      simp only at h1
      rw [if_neg (ne_of_gt hw)] at h1
      cases h2 : i.fit ((f.descend i.style true).elX i.style) ((f.descend i.style true).elWidth i.style) (f.descend i.style true).room with
      | none =>
        rw [h2] at h1
        simp only at h1
        split at h1
        · cases h1
        · simp at h1
      | some r =>
        obtain ⟨x, width, height⟩ := r
        rw [h2] at h1
        simp only [Except.ok.injEq, Prod.mk.injEq, if_true] at h1
        obtain ⟨-, -, rfl⟩ := h1
        have e1 : (f.descend i.style true).elX i.style = f.colX + i.style.left := by
          unfold CBox.elX CBox.colX
          rw [ff.minX, ff.column, ff.colWidth, ff.colsGap]
        have e2 : (f.descend i.style true).elWidth i.style = f.colWidth - i.style.left - i.style.right := by
          unfold CBox.elWidth
          rw [ff.colWidth]
        rw [e1, e2] at h2
        have h3 := fit_proportional (ne_of_gt hw) (ne_of_gt hh) h2
        obtain ⟨k1, k2, k3, k4, k5⟩ := fit_inside hw hh (by linarith) hm h2
        refine ⟨x, _, width, height, rfl, h3, k3, k4, k1, by simp only at k2; linarith, ?_, ?_⟩
        · have k6 := fit_centred h2
          simp only at k6
          linarith
        unfold CBox.room at k5
        rw [ff.maxY] at k5
        simp only at k4 k5
        rcases max_choice 0 ((f.descend i.style true).y - f.maxY) with hc | hc
        · rw [hc] at k5; linarith
        · rw [hc] at k5; linarith

/-! ### Whole content boxes, with groups and nested boxes -/

/-- an image anywhere in an element -/
inductive Spec.HasImage : CEl σ → CImg → Prop
  | image (i : CImg) : HasImage (.image i) i
  | group {l : List (GEl σ)} {t : Nat} {st : CStyle} {i : CImg} (h : GEl.image i ∈ l) : HasImage (.group l t st) i
  | child {cols : Nat} {gap : Option Rat} {els : List (CEl σ)} {st : CStyle} {e : CEl σ} {i : CImg} (h : e ∈ els) (hi : HasImage e i) :
    HasImage (.child cols gap els st) i

/-- the sizes of the pictures are the given ones -/
def Spec.SizesOk (size : Nat → Rat × Rat) (e : CEl σ) : Prop := ∀ i, HasImage e i → i.width = (size i.name).1 ∧ i.height = (size i.name).2

/-- the images placed have the proportions of the pictures -/
def Spec.PartsOk (size : Nat → Rat × Rat) (parts : List (CPart P)) : Prop :=
  ∀ n x y w h, CPart.image n x y w h ∈ parts → Proportional (size n).1 (size n).2 w h

section
variable {exec : σ → Rat → Rat → Rat → Rat → Except PyErr (CellOut σ P B C)} {size : Nat → Rat × Rat}

structure BoxOk (size : Nat → Rat × Rat) (f : CBox σ) : Prop where
  elements : ∀ e ∈ f.elements, SizesOk size e
  delayed : ∀ e ∈ f.delayed, SizesOk size e
  section_ : ∀ e ∈ f.sectionDelayed, SizesOk size e
  memory : ∀ m ∈ f.childrenMemory, ∀ e ∈ m.delayed, SizesOk size e
  partly : ∀ l, f.partialMemory = some l → ∀ m ∈ l, ∀ e ∈ m.delayed, SizesOk size e

theorem BoxOk.of_frame {f g : CBox σ} (h : BoxFrame f g) (hf : BoxOk size f) : BoxOk size g :=
  ⟨by rw [h.elements]; exact hf.elements, by rw [h.delayed]; exact hf.delayed, by rw [h.sectionDelayed]; exact hf.section_,
    by rw [h.childrenMemory]; exact hf.memory, by rw [h.partialMemory]; exact hf.partly⟩

theorem sizes_image {i : CImg} : SizesOk size (.image i : CEl σ) ↔ i.width = (size i.name).1 ∧ i.height = (size i.name).2 := by
  constructor
  · intro h; exact h i (.image i)
  · intro h j hj; cases hj; exact h

theorem parts_append {a b : List (CPart P)} (ha : PartsOk size a) (hb : PartsOk size b) : PartsOk size (a ++ b) := by
  intro n x y w h hm
  rcases List.mem_append.1 hm with hm | hm
  · exact ha n x y w h hm
  · exact hb n x y w h hm

theorem add_parts_ok {w : COut P B C} {o : CellOut σ P B C} (hw : PartsOk size w.parts) : PartsOk size (w.add o).parts := by
  refine parts_append hw ?_
  intro n x y wd h hm
  simp at hm

theorem leaf_parts {f f' : CBox σ} {w w' : COut P B C} {c : σ} {st : CStyle} {add top : Bool} {r : Option σ} (hw : PartsOk size w.parts)
    (h : f.leaf exec w c st add top = .ok (r, f', w')) : PartsOk size w'.parts := by
  obtain ⟨o, -, -, -, rfl⟩ := leaf_ok h
  cases add
  · exact hw
  · exact add_parts_ok hw

theorem image_parts {f f' : CBox σ} {w w' : COut P B C} {i : CImg} {add top : Bool} {r : Option CImg} (hz : ∀ n, (size n).2 ≠ 0)
    (hi : i.width = (size i.name).1 ∧ i.height = (size i.name).2) (hw : PartsOk size w.parts)
    (h : f.image w i add top = .ok (r, f', w')) :
    PartsOk size w'.parts ∧ ∀ i', r = some i' → i'.name = i.name ∧ i'.width = i.width ∧ i'.height = i.height ∧ i'.style = i.style := by
  unfold CBox.image at h
  simp only at h
  split at h
  · cases h
  · rename_i hne
    split at h
    · rename_i x width height hfit
      simp only [Except.ok.injEq, Prod.mk.injEq] at h
      obtain ⟨rfl, -, rfl⟩ := h
      refine ⟨?_, by simp⟩
      cases add
      · exact hw
      · refine parts_append hw ?_
        intro n x' y' w' h' hm
        simp only [List.mem_singleton, CPart.image.injEq] at hm
        obtain ⟨rfl, -, -, rfl, rfl⟩ := hm
        have := fit_proportional hne (by rw [hi.2]; exact hz _) hfit
        rw [hi.1, hi.2] at this
        exact this
    · split at h
      · cases h
      · simp only [Except.ok.injEq, Prod.mk.injEq] at h
        obtain ⟨rfl, -, rfl⟩ := h
        refine ⟨hw, ?_⟩
        intro i' hi'
        cases hi'
        exact ⟨rfl, rfl, rfl, rfl⟩

/-- the same for an element of a group -/
def GOk (size : Nat → Rat × Rat) (e : GEl σ) : Prop := ∀ i, e = .image i → i.width = (size i.name).1 ∧ i.height = (size i.name).2

theorem sizes_group {l : List (GEl σ)} {t : Nat} {st : CStyle} : SizesOk size (.group l t st) ↔ ∀ e ∈ l, GOk size e := by
  constructor
  · rintro h e he i rfl
    exact h i (.group he)
  · intro h i hi
    cases hi with
    | group hm => exact h _ hm i rfl

theorem groupEl_ok (hz : ∀ n, (size n).2 ≠ 0) {f f' : CBox σ} {w w' : COut P B C} {e e' : GEl σ} {add top b : Bool} {mh : Option Rat} (he : GOk size e)
    (hw : PartsOk size w.parts) (h : f.groupEl exec w e add top mh = .ok (b, e', f', w')) : BoxFrame f f' ∧ PartsOk size w'.parts ∧ GOk size e' := by
  unfold CBox.groupEl at h
  cases e with
  | leaf c st =>
    simp only at h
    split at h
    · cases h
    · rename_i r f1 w1 h1
      simp only [Except.ok.injEq, Prod.mk.injEq] at h
      obtain ⟨-, rfl, rfl, rfl⟩ := h
      exact ⟨leaf_frame h1, leaf_parts hw h1, he⟩
  | image i =>
    simp only at h
    have hi := he i rfl
    split at h
    · cases h
    · rename_i f1 w1 h1
      simp only [Except.ok.injEq, Prod.mk.injEq] at h
      obtain ⟨-, rfl, rfl, rfl⟩ := h
      exact ⟨image_frame h1, (image_parts hz (by exact hi) hw h1).1, he⟩
    · rename_i i' f1 w1 h1
      simp only [Except.ok.injEq, Prod.mk.injEq] at h
      obtain ⟨-, rfl, rfl, rfl⟩ := h
      refine ⟨image_frame h1, (image_parts hz (by exact hi) hw h1).1, ?_⟩
      intro j hj
      cases hj
      exact hi

theorem groupTry_ok (hz : ∀ n, (size n).2 ≠ 0) {w : COut P B C} (hw : PartsOk size w.parts) (l : List (GEl σ)) {top b : Bool} {f f' : CBox σ} {l' : List (GEl σ)}
    (hl : ∀ e ∈ l, GOk size e) (h : CBox.groupTry exec w top l f = .ok (b, l', f')) : BoxFrame f f' ∧ ∀ e ∈ l', GOk size e := by
  induction l generalizing top b f l' f' with
  | nil =>
    simp only [CBox.groupTry, Except.ok.injEq, Prod.mk.injEq] at h
    obtain ⟨-, rfl, rfl⟩ := h
    exact ⟨BoxFrame.refl _, by simp⟩
  | cons e l ih =>
    simp only [CBox.groupTry] at h
    cases h1 : f.groupEl exec w e false top none with
    | error e => rw [h1] at h; cases h
    | ok q =>
      obtain ⟨c, e1, f1, w1⟩ := q
      rw [h1] at h
      obtain ⟨k1, k2, k3⟩ := groupEl_ok hz (hl e (by simp)) hw h1
      cases c with
      | false =>
        simp only [Except.ok.injEq, Prod.mk.injEq] at h
        obtain ⟨-, rfl, rfl⟩ := h
        refine ⟨k1, ?_⟩
        intro d hd
        rcases List.mem_cons.1 hd with rfl | hd
        · exact k3
        · exact hl d (by simp [hd])
      | true =>
        simp only at h
        cases h2 : CBox.groupTry exec w true l f1 with
        | error e => rw [h2] at h; cases h
        | ok q =>
          obtain ⟨b2, l2, f2⟩ := q
          rw [h2] at h
          simp only [Except.ok.injEq, Prod.mk.injEq] at h
          obtain ⟨-, rfl, rfl⟩ := h
          obtain ⟨j1, j2⟩ := ih (fun e he => hl e (by simp [he])) h2
          refine ⟨k1.trans j1, ?_⟩
          intro d hd
          rcases List.mem_cons.1 hd with rfl | hd
          · exact k3
          · exact j2 d hd

theorem groupPut_ok (hz : ∀ n, (size n).2 ≠ 0) (ratio : Rat) (l : List (GEl σ)) {w w' : COut P B C} (hw : PartsOk size w.parts) {top : Bool} {f f' : CBox σ} {l' : List (GEl σ)}
    (hl : ∀ e ∈ l, GOk size e) (h : CBox.groupPut exec ratio top l f w = .ok (l', f', w')) : BoxFrame f f' ∧ (∀ e ∈ l', GOk size e) ∧ PartsOk size w'.parts := by
  induction l generalizing top f l' f' w w' with
  | nil =>
    simp only [CBox.groupPut, Except.ok.injEq, Prod.mk.injEq] at h
    obtain ⟨rfl, rfl, rfl⟩ := h
    exact ⟨BoxFrame.refl _, by simp, hw⟩
  | cons e l ih =>
    simp only [CBox.groupPut] at h
    cases h1 : f.groupEl exec w e true top (e.minHeight.map (· * ratio)) with
    | error e => rw [h1] at h; cases h
    | ok q =>
      obtain ⟨c, e1, f1, w1⟩ := q
      rw [h1] at h
      obtain ⟨k1, k2, k3⟩ := groupEl_ok hz (hl e (by simp)) hw h1
      simp only at h
      cases h2 : CBox.groupPut exec ratio true l f1 w1 with
      | error e => rw [h2] at h; cases h
      | ok q =>
        obtain ⟨l2, f2, w2⟩ := q
        rw [h2] at h
        simp only [Except.ok.injEq, Prod.mk.injEq] at h
        obtain ⟨rfl, rfl, rfl⟩ := h
        obtain ⟨j1, j2, j3⟩ := ih k2 (fun e he => hl e (by simp [he])) h2
        refine ⟨k1.trans j1, ?_, j3⟩
        intro d hd
        rcases List.mem_cons.1 hd with rfl | hd
        · exact k3
        · exact j2 d hd

theorem group_ok (hz : ∀ n, (size n).2 ≠ 0) {f f' : CBox σ} {w w' : COut P B C} (hw : PartsOk size w.parts) {l l' : List (GEl σ)} {t t' : Nat} {st : CStyle} {b : Bool}
    (hl : ∀ e ∈ l, GOk size e) (h : f.group exec w l t st = .ok (b, l', t', f', w')) : BoxFrame f f' ∧ (∀ e ∈ l', GOk size e) ∧ PartsOk size w'.parts := by
  unfold CBox.group at h
  have h0 : BoxFrame f (if f.starting then f else { f with y := f.y - st.top }) := by
    split
    · exact BoxFrame.refl _
    · exact ⟨rfl, rfl, rfl, rfl, rfl, rfl, rfl, rfl, rfl, rfl, rfl, rfl, rfl, rfl, rfl, rfl, rfl, rfl, rfl, rfl, rfl, rfl⟩
  have hy : ∀ (k : CBox σ) (y : Rat), BoxFrame k { k with y := y } := fun k y =>
    ⟨rfl, rfl, rfl, rfl, rfl, rfl, rfl, rfl, rfl, rfl, rfl, rfl, rfl, rfl, rfl, rfl, rfl, rfl, rfl, rfl, rfl, rfl⟩
  cases ht : CBox.groupTry exec w false l (if f.starting then f else { f with y := f.y - st.top }) with
  | error e => rw [ht] at h; cases h
  | ok q =>
    obtain ⟨c, l1, f1⟩ := q
    rw [ht] at h
    obtain ⟨k1, k2⟩ := groupTry_ok hz hw l hl ht
    cases c with
    | false =>
      simp only at h
      split at h
      · cases h
      · simp only [Except.ok.injEq, Prod.mk.injEq] at h
        obtain ⟨-, rfl, -, rfl, rfl⟩ := h
        exact ⟨(h0.trans k1).trans (hy f1 f.y), k2, hw⟩
    | true =>
      simp only at h
      split at h
      · cases h
      · split at h
        · cases h
        · rename_i l2 f2 w2 h2
          simp only [Except.ok.injEq, Prod.mk.injEq] at h
          obtain ⟨-, rfl, -, rfl, rfl⟩ := h
          obtain ⟨j1, j2, j3⟩ := groupPut_ok hz _ l1 hw k2 h2
          exact ⟨((h0.trans k1).trans (hy f1 f.y)).trans j1, j2, j3⟩

theorem process_ok (hz : ∀ n, (size n).2 ≠ 0) {f f' : CBox σ} {w w' : COut P B C} {e e' : CEl σ} {a : CAns σ} (he : SizesOk size e) (hw : PartsOk size w.parts)
    (h : f.process exec w e = .ok (a, e', f', w')) : BoxFrame f f' ∧ PartsOk size w'.parts ∧ SizesOk size e' ∧ ∀ d ∈ a.delayed.toList, SizesOk size d := by
  unfold CBox.process at h
  cases e with
  | leaf c st =>
    simp only at h
    have hl : ∀ c', SizesOk size (.leaf c' st : CEl σ) := by intro c' i hi; cases hi
    split at h
    · cases h
    · rename_i f1 w1 h1
      simp only [Except.ok.injEq, Prod.mk.injEq] at h
      obtain ⟨rfl, rfl, rfl, rfl⟩ := h
      exact ⟨leaf_frame h1, leaf_parts hw h1, he, by simp⟩
    · rename_i c' f1 w1 h1
      simp only [Except.ok.injEq, Prod.mk.injEq] at h
      obtain ⟨rfl, rfl, rfl, rfl⟩ := h
      exact ⟨leaf_frame h1, leaf_parts hw h1, he, by simpa using hl c'⟩
  | image i =>
    simp only at h
    have hi := sizes_image.1 he
    split at h
    · cases h
    · rename_i f1 w1 h1
      simp only [Except.ok.injEq, Prod.mk.injEq] at h
      obtain ⟨rfl, rfl, rfl, rfl⟩ := h
      exact ⟨image_frame h1, (image_parts hz hi hw h1).1, he, by simp⟩
    · rename_i i' f1 w1 h1
      simp only [Except.ok.injEq, Prod.mk.injEq] at h
      obtain ⟨rfl, rfl, rfl, rfl⟩ := h
      obtain ⟨k1, k2⟩ := image_parts hz hi hw h1
      obtain ⟨n1, n2, n3, -⟩ := k2 i' rfl
      have hi' : SizesOk size (.image i' : CEl σ) := sizes_image.2 (by rw [n1, n2, n3]; exact hi)
      exact ⟨image_frame h1, k1, hi', by simpa using hi'⟩
  | group l t st =>
    simp only at h
    have hl := sizes_group.1 he
    split at h
    · cases h
    · rename_i l1 t1 f1 w1 h1
      simp only [Except.ok.injEq, Prod.mk.injEq] at h
      obtain ⟨rfl, rfl, rfl, rfl⟩ := h
      obtain ⟨k1, k2, k3⟩ := group_ok hz hw hl h1
      exact ⟨k1, k3, sizes_group.2 k2, by simp⟩
    · rename_i l1 t1 f1 w1 h1
      simp only [Except.ok.injEq, Prod.mk.injEq] at h
      obtain ⟨rfl, rfl, rfl, rfl⟩ := h
      obtain ⟨k1, k2, k3⟩ := group_ok hz hw hl h1
      exact ⟨k1, k3, sizes_group.2 k2, by simpa using sizes_group.2 k2⟩
  | child cols gap els st => cases h

theorem replaceAt_mem {α : Type} {l : List α} {n : Nat} {o : Option α} {p : α → Prop} (hl : ∀ e ∈ l, p e) (ho : ∀ d ∈ o.toList, p d) :
    ∀ e ∈ replaceAt l n o, p e := by
  intro e he
  unfold replaceAt at he
  cases o with
  | none => exact hl e (List.mem_of_mem_eraseIdx he)
  | some d =>
    rcases List.mem_or_eq_of_mem_set he with h | h
    · exact hl e h
    · rw [h]; exact ho d (by simp)

theorem addDelayed_ok (hz : ∀ n, (size n).2 ≠ 0) (n k : Nat) {f f' : CBox σ} {w w' : COut P B C} {act : CAct} (hf : BoxOk size f) (hw : PartsOk size w.parts)
    (h : f.addDelayed exec n k w = .ok (act, f', w')) : BoxOk size f' ∧ PartsOk size w'.parts := by
  induction n generalizing k f w with
  | zero => cases h
  | succ n ih =>
    rw [CBox.addDelayed] at h
    cases h1 : f.delayed[k]? with
    | none =>
      rw [h1] at h
      simp only [Except.ok.injEq, Prod.mk.injEq] at h
      obtain ⟨-, rfl, rfl⟩ := h
      exact ⟨hf, hw⟩
    | some e =>
      rw [h1] at h
      simp only at h
      cases h2 : f.process exec w e with
      | error e => rw [h2] at h; cases h
      | ok q =>
        obtain ⟨a, e', f1, w1⟩ := q
        rw [h2] at h
        simp only at h
        obtain ⟨k1, k2, k3, k4⟩ := process_ok hz (hf.delayed e (List.mem_of_getElem? h1)) hw h2
        have hf1 := hf.of_frame k1
        have hf2 : BoxOk size { f1 with delayed := replaceAt f1.delayed k a.delayed } :=
          ⟨hf1.elements, replaceAt_mem hf1.delayed k4, hf1.section_, hf1.memory, hf1.partly⟩
        by_cases hn : a.next = true
        · rw [if_pos hn] at h
          simp only [Except.ok.injEq, Prod.mk.injEq] at h
          obtain ⟨-, rfl, rfl⟩ := h
          exact ⟨hf2, k2⟩
        · rw [if_neg hn] at h
          exact ih _ hf2 k2 h

/-- all the boxes of a stack -/
def StackOk (size : Nat → Rat × Rat) (stk : List (CBox σ)) : Prop := ∀ f ∈ stk, BoxOk size f

theorem StackOk.cons {f : CBox σ} {l : List (CBox σ)} (hf : BoxOk size f) (hl : StackOk size l) : StackOk size (f :: l) := by
  intro g hg
  rcases List.mem_cons.1 hg with rfl | hg
  · exact hf
  · exact hl g hg

theorem StackOk.head {f : CBox σ} {l : List (CBox σ)} (h : StackOk size (f :: l)) : BoxOk size f := h f (by simp)
theorem StackOk.tail {f : CBox σ} {l : List (CBox σ)} (h : StackOk size (f :: l)) : StackOk size l := fun g hg => h g (by simp [hg])

theorem nextSection_ok (parts : Nat) (stk : List (CBox σ)) (mem : Option (List (CMem σ))) (hm : ∀ l, mem = some l → ∀ m ∈ l, ∀ e ∈ m.delayed, SizesOk size e)
    (hs : StackOk size stk) : StackOk size (nextSection parts mem stk).2 := by
  induction stk generalizing mem with
  | nil => simp only [nextSection]; exact hs
  | cons f anc ih =>
    have hf := hs.head
    have hmem : ∀ m ∈ mem.getD [], ∀ e ∈ m.delayed, SizesOk size e := by
      cases mem with
      | none => simp
      | some l => exact hm l rfl
    simp only [nextSection]
    split
    · split
      · exact StackOk.cons ⟨hf.elements, hf.delayed, hf.section_, hf.memory, hf.partly⟩ hs.tail
      · have hf2 : BoxOk size { f with sectionIndex := f.index, sectionDelayed := f.delayed, childrenMemory := mem.getD [] } :=
          ⟨hf.elements, hf.delayed, hf.delayed, hmem, hf.partly⟩
        split
        · exact StackOk.cons hf2 (by intro g hg; cases hg)
        · have h2 := ih (some (mem.getD [] ++ [⟨f.index, f.delayed⟩])) (by
            intro l hl m hm2
            cases hl
            rcases List.mem_append.1 hm2 with h | h
            · exact hmem m h
            · simp only [List.mem_singleton] at h
              subst h
              exact hf.delayed) hs.tail
          split
          · rename_i x y anc' heq
            rw [heq] at h2
            exact StackOk.cons ⟨hf2.elements, hf2.delayed, hf2.section_, hf2.memory, hf2.partly⟩ h2
          · rename_i r anc' _ heq
            rw [heq] at h2
            exact StackOk.cons hf2 h2
    · split
      · exact StackOk.cons ⟨hf.elements, hf.delayed, hf.section_, hf.memory, hm⟩ hs.tail
      · exact StackOk.cons ⟨hf.elements, hf.delayed, hf.section_, hf.memory, hf.partly⟩ hs.tail

theorem reset_ok {f : CBox σ} {w : COut P B C} (hf : BoxOk size f) (hw : PartsOk size w.parts) : BoxOk size (f.reset w).2.1 ∧ PartsOk size (f.reset w).2.2.parts := by
  unfold CBox.reset
  split
  · exact ⟨hf, hw⟩
  · refine ⟨?_, ?_⟩
    · simp only
      split <;> exact ⟨hf.elements, hf.section_, hf.section_, hf.memory, hf.partly⟩
    · intro n x y wd h hm
      exact hw n x y wd h (List.mem_of_mem_take hm)

theorem breakAct_ok {f : CBox σ} {anc : List (CBox σ)} {w : COut P B C} (hs : StackOk size (f :: anc)) (hw : PartsOk size w.parts) :
    StackOk size (breakAct f anc w).2.1 ∧ PartsOk size (breakAct f anc w).2.2.parts := by
  unfold breakAct
  split
  · obtain ⟨k1, k2⟩ := reset_ok hs.head hw
    exact ⟨StackOk.cons k1 hs.tail, k2⟩
  · exact ⟨hs, hw⟩

theorem answerAct_ok (a : CAct) {stk : List (CBox σ)} {w : COut P B C} (hs : StackOk size stk) (hw : PartsOk size w.parts) :
    StackOk size (answerAct a stk w).2.1 ∧ PartsOk size (answerAct a stk w).2.2.parts := by
  unfold answerAct
  cases stk with
  | nil => exact ⟨hs, hw⟩
  | cons f anc =>
    cases a with
    | brk => exact breakAct_ok hs hw
    | next =>
      have h := nextSection_ok w.parts.length (f :: anc) none (by simp) hs
      simp only
      split
      · rename_i g anc' heq
        rw [heq] at h
        exact breakAct_ok h hw
      · rename_i stk' heq
        rw [heq] at h
        exact ⟨h, hw⟩
      · rename_i stk' heq
        rw [heq] at h
        exact ⟨h, hw⟩
      · rename_i r stk' _ _ _ heq
        rw [heq] at h
        exact ⟨h, hw⟩
    | interrupt => exact ⟨hs, hw⟩
    | partialNext => exact ⟨hs, hw⟩
    | cont => exact ⟨hs, hw⟩
    | retry => exact ⟨hs, hw⟩

theorem startResetting_ok (stk : List (CBox σ)) (hs : StackOk size stk) : StackOk size (startResetting stk) := by
  induction stk with
  | nil => exact hs
  | cons f anc ih =>
    have hf := hs.head
    have hf' : BoxOk size { f with willReset := true } := ⟨hf.elements, hf.delayed, hf.section_, hf.memory, hf.partly⟩
    cases anc with
    | nil => exact StackOk.cons hf' (by intro g hg; cases hg)
    | cons p anc =>
      simp only [startResetting]
      split
      · exact StackOk.cons hf (ih hs.tail)
      · exact StackOk.cons hf' hs.tail

theorem child_ok {cols : Nat} {gap : Option Rat} {els : List (CEl σ)} {st : CStyle} :
    SizesOk size (.child cols gap els st) ↔ ∀ e ∈ els, SizesOk size e := by
  constructor
  · intro h e he i hi
    exact h i (.child he hi)
  · intro h i hi
    cases hi with
    | child hm hi => exact h _ hm i hi

theorem newChild_ok {f : CBox σ} (hf : BoxOk size f) (cols : Nat) (gap : Option Rat) {els : List (CEl σ)} (st : CStyle) (last : Bool) (parts : Nat)
    (he : ∀ e ∈ els, SizesOk size e) :
    BoxOk size (f.newChild cols gap els st last parts).1 ∧ BoxOk size (f.newChild cols gap els st last parts).2 := by
  have hf1 := hf.of_frame (descend_frame f st true)
  have mem_last : ∀ (l : List (CMem σ)) (m : CMem σ), l.getLast? = some m → m ∈ l := fun l m h => List.mem_of_getLast? h
  have mem_drop : ∀ (l : List (CMem σ)) (m : CMem σ), m ∈ l.dropLast → m ∈ l := fun l m h => (List.dropLast_sublist l).subset h
  unfold CBox.newChild
  simp only
  split
  · rename_i m hm
    split at hm
    · have hm' := hf1.memory m (mem_last _ _ hm)
      exact ⟨⟨hf1.elements, hf1.delayed, hf1.section_, hf1.memory, (by intro l hl; cases hl)⟩,
        ⟨he, hm', hm', fun m hm2 => hf1.memory m (mem_drop _ _ hm2), (by intro l hl; cases hl)⟩⟩
    · cases hm
  · split
    · rename_i m hm
      cases hp : (f.descend st true).partialMemory with
      | none => rw [hp] at hm; cases hm
      | some l =>
        rw [hp] at hm
        have hm' := hf1.partly l hp m (mem_last _ _ hm)
        refine ⟨⟨hf1.elements, hf1.delayed, hf1.section_, hf1.memory, (by intro l hl; cases hl)⟩,
          ⟨he, hm', hm', fun m hm2 => ?_, (by intro l hl; cases hl)⟩⟩
        exact hf1.partly l hp m (mem_drop _ _ hm2)
    · exact ⟨hf1, ⟨he, (by intro e h; cases h), (by intro e h; cases h), (by intro e h; cases h), (by intro l hl; cases hl)⟩⟩

theorem set_mem {α : Type} {l : List α} {n : Nat} {a : α} {p : α → Prop} (hl : ∀ e ∈ l, p e) (ha : p a) : ∀ e ∈ l.set n a, p e := by
  intro e he
  rcases List.mem_or_eq_of_mem_set he with h | h
  · exact hl e h
  · rw [h]; exact ha

theorem run_ok (hz : ∀ n, (size n).2 ≠ 0) (n : Nat) :
    (∀ (stk stk' : List (CBox σ)) (w w' : COut P B C) (a : CAct), StackOk size stk → PartsOk size w.parts → contentRun exec n stk w = .ok (a, stk', w') →
      StackOk size stk' ∧ PartsOk size w'.parts) ∧
    (∀ (stk stk' : List (CBox σ)) (w w' : COut P B C) (a : CAct), StackOk size stk → PartsOk size w.parts → contentElements exec n stk w = .ok (a, stk', w') →
      StackOk size stk' ∧ PartsOk size w'.parts) := by
  induction n with
  | zero =>
    constructor
    · intro stk stk' w w' a _ _ h
      rw [contentRun] at h; cases h
    · intro stk stk' w w' a _ _ h
      rw [contentElements] at h; cases h
  | succ n ih =>
    obtain ⟨ih1, ih2⟩ := ih
    constructor
    · intro stk stk' w w' a hs hw h
      cases stk with
      | nil => simp [contentRun] at h
      | cons f anc =>
        rw [contentRun] at h
        cases hd : f.addDelayed exec n 0 w with
        | error e => rw [hd] at h; cases h
        | ok q =>
          obtain ⟨a1, f1, w1⟩ := q
          rw [hd] at h
          obtain ⟨k1, k2⟩ := addDelayed_ok hz n 0 hs.head hw hd
          have k3 := answerAct_ok a1 (StackOk.cons k1 hs.tail) k2
          simp only at h
          generalize answerAct a1 (f1 :: anc) w1 = r1 at h k3
          obtain ⟨a2, stk2, w2⟩ := r1
          obtain ⟨k3, k4⟩ := k3
          simp only at k3 k4
          split at h
          · rename_i heq
            cases heq
            exact ih1 _ _ _ _ _ k3 k4 h
          · rename_i heq
            cases heq
            cases h
            exact ⟨k3, k4⟩
          · rename_i heq
            cases heq
            cases h
            exact ⟨k3, k4⟩
          · rename_i heq
            cases heq
            cases h
            exact ⟨k3, k4⟩
          · rename_i heq
            cases heq
            cases he : contentElements exec n stk2 w2 with
            | error e => rw [he] at h; cases h
            | ok q =>
              obtain ⟨a3, stk3, w3⟩ := q
              rw [he] at h
              obtain ⟨k5, k6⟩ := ih2 _ _ _ _ _ k3 k4 he
              have k7 := answerAct_ok a3 k5 k6
              simp only at h
              generalize answerAct a3 stk3 w3 = r3 at h k7
              obtain ⟨a4, stk4, w4⟩ := r3
              obtain ⟨k7, k8⟩ := k7
              simp only at k7 k8
              split at h
              · rename_i heq
                cases heq
                exact ih1 _ _ _ _ _ k7 k8 h
              · rename_i heq
                cases heq
                cases h
                exact ⟨k7, k8⟩
              · rename_i heq
                cases heq
                cases h
                exact ⟨k7, k8⟩
              · rename_i heq
                cases heq
                cases h
                exact ⟨k7, k8⟩
              · rename_i heq
                cases heq
                cases h
                exact ⟨k7, k8⟩
              · rename_i f5 anc5 w5 _ _ _ _ heq
                cases heq
                split at h
                · exact ih1 _ _ _ _ _ k7 k8 h
                · split at h
                  · split at h
                    · cases h
                      exact ⟨k7, k8⟩
                    · have k9 := startResetting_ok _ k7
                      split at h
                      · cases h
                        exact ⟨(by intro g hg; cases hg), k8⟩
                      · rename_i f6 anc6 heq6
                        rw [heq6] at k9
                        split at h
                        · obtain ⟨j1, j2⟩ := reset_ok k9.head k8
                          exact ih1 _ _ _ _ _ (StackOk.cons j1 k9.tail) j2 h
                        · cases h
                          exact ⟨k9, k8⟩
                  · split at h
                    · have h5 := k7.head
                      obtain ⟨j1, j2⟩ := reset_ok (f := { f5 with forward := false }) (size := size)
                        ⟨h5.elements, h5.delayed, h5.section_, h5.memory, h5.partly⟩ k8
                      split at h
                      · exact ih1 _ _ _ _ _ (StackOk.cons j1 k7.tail) j2 h
                      · cases h
                        exact ⟨StackOk.cons j1 k7.tail, j2⟩
                    · cases h
                      exact ⟨k7, k8⟩
    · intro stk stk' w w' a hs hw h
      cases stk with
      | nil => simp [contentElements] at h
      | cons f anc =>
        rw [contentElements] at h
        have hf := hs.head
        split at h
        · cases h
          exact ⟨hs, hw⟩
        · rename_i cols gap els st he
          have hels := child_ok.1 (hf.elements _ (List.mem_of_getElem? he))
          split at h
          · cases h
          · obtain ⟨k1, k2⟩ := newChild_ok hf cols gap st (decide (f.index + 1 = f.elements.length)) w.parts.length hels
            simp only at h
            split at h
            · cases h
            · rename_i a1 c1 f1 anc1 w1 hr
              obtain ⟨j1, j2⟩ := ih1 _ _ _ _ _ (StackOk.cons k2 (StackOk.cons k1 hs.tail)) hw hr
              have hc := j1.head
              have hf1 := j1.tail.head
              have hf2 : BoxOk size { f1 with elements := f1.elements.set f1.index (.child cols gap c1.elements st) } :=
                ⟨set_mem hf1.elements (child_ok.2 hc.elements), hf1.delayed, hf1.section_, hf1.memory, hf1.partly⟩
              have hf3 : BoxOk size (if a1 = .partialNext then { f1 with elements := f1.elements.set f1.index (.child cols gap c1.elements st) }
                  else CBox.childTook { f1 with elements := f1.elements.set f1.index (.child cols gap c1.elements st) } c1 f.y st) := by
                split
                · exact hf2
                · exact hf2.of_frame (took_frame _ _ _ _)
              generalize (if a1 = .partialNext then { f1 with elements := f1.elements.set f1.index (.child cols gap c1.elements st) }
                  else CBox.childTook { f1 with elements := f1.elements.set f1.index (.child cols gap c1.elements st) } c1 f.y st) = f3 at h hf3
              split at h
              · cases h
                exact ⟨StackOk.cons hf3 j1.tail.tail, j2⟩
              · exact ih2 _ _ _ _ _ (StackOk.cons (f := { f3 with starting := false, index := f3.index + 1 }) ⟨hf3.elements, hf3.delayed, hf3.section_, hf3.memory, hf3.partly⟩ j1.tail.tail) j2 h
            · rename_i a1 stk1 w1 _ hr
              obtain ⟨j1, j2⟩ := ih1 _ _ _ _ _ (StackOk.cons k2 (StackOk.cons k1 hs.tail)) hw hr
              cases h
              exact ⟨j1, j2⟩
        · rename_i e _ he
          have hse := hf.elements _ (List.mem_of_getElem? he)
          split at h
          · cases h
          · rename_i a1 e1 f1 w1 hp
            obtain ⟨j1, j2, j3, j4⟩ := process_ok hz hse hw hp
            have hf1 := hf.of_frame j1
            have hf2 : BoxOk size { f1 with elements := f1.elements.set f1.index e1, index := f1.index + 1, delayed := f1.delayed ++ a1.delayed.toList } := by
              refine ⟨set_mem hf1.elements j3, ?_, hf1.section_, hf1.memory, hf1.partly⟩
              intro d hd
              rcases List.mem_append.1 hd with hd | hd
              · exact hf1.delayed d hd
              · exact j4 d hd
            simp only at h
            split at h
            · cases h
              exact ⟨StackOk.cons hf2 hs.tail, j2⟩
            · exact ih2 _ _ _ _ _ (StackOk.cons hf2 hs.tail) j2 h

end

/-- between two rectangles -/
def ContentOk (size : Nat → Rat × Rat) (s : CContent σ P B C) : Prop := (∀ e ∈ s.elements, SizesOk size e) ∧ ∀ f, s.box = some f → BoxOk size f

/-- C39: all the images that a content box places in any sequence of rectangles, in groups and nested boxes too, have the proportions of the pictures -/
theorem C39_proportions (exec : σ → Rat → Rat → Rat → Rat → Except PyErr (CellOut σ P B C)) (size : Nat → Rat × Rat) (hz : ∀ n, (size n).2 ≠ 0)
    (cols : Nat) (gap : Option Rat) (els : List (CEl σ)) (he : ∀ e ∈ els, SizesOk size e) (fuel : Nat) (rects : List (Rat × Rat × Rat × Rat))
    (ps : List (CPart P)) (s : CContent σ P B C) (hr : (CContent.new cols gap els).runs exec fuel rects = .ok (ps, s)) : PartsOk size ps := by
  have key : ∀ (rects : List (Rat × Rat × Rat × Rat)) (s0 s : CContent σ P B C) (ps : List (CPart P)), ContentOk size s0 → s0.runs exec fuel rects = .ok (ps, s) → PartsOk size ps := by
    intro rects
    induction rects with
    | nil =>
      intro s0 s ps _ h
      simp only [CContent.runs, Except.ok.injEq, Prod.mk.injEq] at h
      rw [← h.1]
      intro n x y w h hm
      cases hm
    | cons q l ih =>
      obtain ⟨x, y, wd, ht⟩ := q
      intro s0 s ps hs h
      rw [CContent.runs] at h
      split at h
      · simp only [Except.ok.injEq, Prod.mk.injEq] at h
        rw [← h.1]
        intro n x y w h hm
        cases hm
      · split at h
        · cases h
        · rename_i s1 h1
          unfold CContent.run at h1
          split at h1
          · cases h1
          · simp only at h1
            have hbox : BoxOk size ((s0.box.getD (CBox.blank s0.cols s0.gap s0.elements true)).setup x wd y (y - ht) 0) := by
              cases hb : s0.box with
              | none => exact ⟨hs.1, (by intro e h; cases h), (by intro e h; cases h), (by intro e h; cases h), (by intro l hl; cases hl)⟩
              | some f =>
                have hf := hs.2 f hb
                exact ⟨hf.elements, hf.section_, hf.section_, hf.memory, hf.partly⟩
            split at h1
            · cases h1
            · rename_i a f anc w hr
              obtain ⟨k1, k2⟩ := (run_ok hz fuel).1 _ _ _ _ _ (StackOk.cons hbox (by intro g hg; cases hg)) (by intro n x y w h hm; cases hm) hr
              cases h1
              split at h
              · cases h
              · rename_i ps2 s2 h2
                simp only [Except.ok.injEq, Prod.mk.injEq] at h
                rw [← h.1]
                refine parts_append k2 (ih _ _ _ ?_ h2)
                refine ⟨hs.1, ?_⟩
                intro g hg
                cases hg
                exact k1.head
            · cases h1
  exact key rects _ s ps ⟨he, by intro f hf; cases hf⟩ hr

/-! ### Examples and counterexamples -/

/-- a wide picture fills the column, a high one is made smaller to fit and is in the middle -/
example : contentShown 1 [.image ⟨1, 200, 100, 0, { contStyle with left := 10 }⟩, .image ⟨2, 100, 200, 0, { contStyle with minHeight := some 30 }⟩] [100] =
    .ok ([[.image 1 10 55 90 45, .image 2 (75 / 2) 0 25 50]], true) := by decide +kernel

/-- C39 fails if the margins of an image are wider than the column: it is turned around, with negative sizes -/
theorem C39_margins_false :
    contentShown 1 [.image ⟨1, 200, 100, 0, { contStyle with left := 70, right := 50 }⟩] [100] = .ok ([[.image 1 70 110 (-20) (-10)]], true) := by decide +kernel

/-- C39 fails if the least height is negative and there is no room left: the image goes below the column -/
theorem C39_min_height_false :
    contentShown 1 [.leaf c!"abc" contStyle, .image ⟨1, 100, 100, 0, { contStyle with minHeight := some (-10), shrink := true }⟩] [30] =
      .ok ([[.leaf c!"abc", .image 1 55 5 (-10) (-10)]], true) := by decide +kernel

end Verif
