import Verif.Lemmas.ContentCong
import Verif.Props.C36_Balance
import Mathlib.Tactic.Ring
/-! Why a content box of one column comes to an end: every page makes a measure smaller, and no image is tried too often. -/
namespace Verif
open Spec

variable {σ P B C : Type}

/-- contents that come to an end: each run succeeds and leaves no more than before, and in a box that is high enough (`fit`) it finishes the
content or leaves less -/
structure Spec.BoxEnds (exec : σ → Rat → Rat → Rat → Rat → Except PyErr (CellOut σ P B C)) (good : σ → Prop) (fit : σ → Rat → Rat → Prop)
    (size : σ → Nat) : Prop where
  runs : ∀ c x y w h, good c → ∃ o, exec c x y w h = .ok o ∧ good o.next ∧ (o.finished = false → size o.next ≤ size c)
  shrink : ∀ c x y w h o, good c → fit c w h → exec c x y w h = .ok o → o.finished = false → size o.next < size c
  keep : ∀ c x y w h o w' h', good c → fit c w' h' → exec c x y w h = .ok o → fit o.next w' h'

/-- an image that fits a page: it is lower than the page, or may be made as small as that -/
def Spec.ImageLow (i : CImg) (W H : Rat) : Prop :=
  i.width ≠ 0 ∧ i.style.place ≠ .other ∧
    ((W - i.style.left - i.style.right) * i.height / i.width < H ∨ ∃ m, i.style.minHeight = some m ∧ m ≤ H)

/-- a paragraph or table, or an image, that fits a page -/
def ElLow (good : σ → Prop) (fit : σ → Rat → Rat → Prop) (W H : Rat) : CEl σ → Prop
  | .leaf c st => good c ∧ fit c (W - st.left - st.right) H
  | .image i => ImageLow i W H
  | _ => False

/-- the size of what is left of an element -/
def elLeft (size : σ → Nat) : CEl σ → Nat
  | .leaf c _ => size c + 1
  | .image _ => 1
  | _ => 0

/-- how often an image was tried -/
def elTries : CEl σ → Nat
  | .image i => i.tries
  | _ => 0

/-- no image is tried too often: one for each place before it in the list -/
def TriesOk (T : Nat) : Nat → List (CEl σ) → Prop
  | _, [] => True
  | n, e :: l => elTries e + n ≤ T ∧ TriesOk T (n + 1) l

theorem TriesOk.shift {T : Nat} : ∀ {l : List (CEl σ)} {n : Nat}, TriesOk (T + 1) (n + 1) l → TriesOk T n l
  | [], _, _ => trivial
  | _ :: _, _, h => ⟨by have := h.1; omega, TriesOk.shift h.2⟩

theorem TriesOk.mono {T T' : Nat} (hT : T ≤ T') : ∀ {l : List (CEl σ)} {n n' : Nat}, n' ≤ n → TriesOk T n l → TriesOk T' n' l
  | [], _, _, _, _ => trivial
  | _ :: _, _, _, hn, h => ⟨by have := h.1; omega, TriesOk.mono hT (by omega) h.2⟩

theorem TriesOk.append {T : Nat} : ∀ {l m : List (CEl σ)} {n : Nat}, TriesOk T n l → TriesOk T (n + l.length) m → TriesOk T n (l ++ m)
  | [], _, _, _, h => by simpa using h
  | _ :: l, _, _, h, h' => ⟨h.1, TriesOk.append h.2 (by simpa [Nat.add_assoc, Nat.add_comm 1] using h')⟩

theorem elLow_simple {good : σ → Prop} {fit : σ → Rat → Rat → Prop} {W H : Rat} {e : CEl σ} (h : ElLow good fit W H e) : simple e = true := by
  cases e with
  | leaf c st => rfl
  | image i => simpa [simple] using h.2.1
  | group => exact h.elim
  | child => exact h.elim

section
variable {exec : σ → Rat → Rat → Rat → Rat → Except PyErr (CellOut σ P B C)} {good : σ → Prop} {fit : σ → Rat → Rat → Prop} {size : σ → Nat}
  {W H : Rat}

/-- at the top of a full page -/
structure AtTop (W H : Rat) (f : CBox σ) : Prop where
  starting : f.starting = true
  width : f.colWidth = W
  height : f.y - f.maxY = H
  pos : 0 ≤ H

/-- what an element that fits answers -/
structure Answer (good : σ → Prop) (fit : σ → Rat → Rat → Prop) (size : σ → Nat) (W H : Rat) (f : CBox σ) (e : CEl σ) (a : CAns σ) : Prop where
  low : ∀ d, a.delayed = some d → ElLow good fit W H d
  less : ∀ d, a.delayed = some d → elLeft size d ≤ elLeft size e
  tries : ∀ d, a.delayed = some d → elTries d ≤ elTries e + 1
  flows : ∀ d, a.delayed = some d → Spec.flows d = Spec.flows e ∧ a.next = !Spec.flows e ∧ a.flow = Spec.flows e
  top : AtTop W H f → ∀ d, a.delayed = some d → a.next = true ∧ elLeft size d < elLeft size e ∧ elTries d = elTries e

theorem process_low (hx : BoxEnds exec good fit size) {f : CBox σ} {w : COut P B C} {e : CEl σ} (he : ElLow good fit W H e) (ht : elTries e < 50) :
    ∃ a e' f' w', f.process exec w e = .ok (a, e', f', w') ∧ Answer good fit size W H f e a := by
  cases e with
  | group => exact he.elim
  | child => exact he.elim
  | leaf c st =>
    obtain ⟨hg, hfit⟩ := he
    unfold CBox.process CBox.leaf
    simp only
    obtain ⟨o, ho, hgo, hle⟩ := hx.runs c ((f.descend st true).elX st) (f.descend st true).y ((f.descend st true).elWidth st) (f.descend st true).room hg
    rw [ho]
    simp only
    cases hfin : o.finished with
    | true => exact ⟨_, _, _, _, rfl, ⟨by simp, by simp, by simp, by simp, by simp⟩⟩
    | false =>
      refine ⟨_, _, _, _, rfl, ⟨?_, ?_, ?_, ?_, ?_⟩⟩
      · intro d hd; cases hd
        exact ⟨hgo, hx.keep _ _ _ _ _ _ _ _ hg hfit ho⟩
      · intro d hd; cases hd
        have := hle hfin
        simp only [elLeft]; omega
      · intro d hd; cases hd
        simp [elTries]
      · intro d hd; cases hd
        simp [Spec.flows]
      · intro ht d hd; cases hd
        refine ⟨rfl, ?_, rfl⟩
        have hds : f.descend st true = f := by simp [CBox.descend, ht.starting]
        rw [hds] at ho
        have hroom : f.room = H := by rw [CBox.room, ht.height, max_eq_right ht.pos]
        rw [hroom, CBox.elWidth, ht.width] at ho
        have := hx.shrink _ _ _ _ _ _ hg hfit ho hfin
        simp only [elLeft]; omega
  | image i =>
    obtain ⟨h1, h2, h3⟩ := he
    unfold CBox.process CBox.image
    simp only
    rw [if_neg h1]
    cases hf : i.fit ((f.descend i.style true).elX i.style) ((f.descend i.style true).elWidth i.style) (f.descend i.style true).room with
    | some q => exact ⟨_, _, _, _, rfl, ⟨by simp, by simp, by simp, by simp, by simp⟩⟩
    | none =>
      have ht' : ¬ i.tries ≥ 50 := by have : i.tries < 50 := ht; omega
      simp only [if_neg ht']
      have hflow : (decide (i.style.place = .normal) = !Spec.flows (.image i : CEl σ)) ∧ (decide (i.style.place = .flow) = Spec.flows (.image i : CEl σ)) := by
        cases hp : i.style.place with
        | normal => simp [Spec.flows, hp]
        | flow => simp [Spec.flows, hp]
        | other => exact absurd hp h2
      refine ⟨_, _, _, _, rfl, ⟨?_, ?_, ?_, ?_, ?_⟩⟩
      · intro d hd; cases hd; exact ⟨h1, h2, h3⟩
      · intro d hd; cases hd; simp [elLeft]
      · intro d hd; cases hd; simp [elTries]
      · intro d hd; cases hd; exact ⟨rfl, hflow.1, hflow.2⟩
      · intro ht d hd
        exfalso
        have hds : f.descend i.style true = f := by simp [CBox.descend, ht.starting]
        have hroom : f.room = H := by rw [CBox.room, ht.height, max_eq_right ht.pos]
        rw [hds, hroom, CBox.elWidth, ht.width] at hf
        unfold CImg.fit at hf
        simp only at hf
        rcases h3 with h3 | ⟨m, hm, hle⟩
        · rw [if_pos h3] at hf; cases hf
        · split at hf
          · cases hf
          · rw [hm] at hf
            simp only [if_pos hle] at hf
            cases hf

theorem frame_step {f f1 f' : CBox σ} {m : List (CEl σ)} (h : BoxFrame f f1) (h' : BoxFrame { f1 with delayed := m } f') :
    BoxFrame { f with delayed := m } f' :=
  ⟨h'.elements.trans h.elements, h'.cols.trans h.cols, h'.gapOpt.trans h.gapOpt, h'.last.trans h.last, h'.sectionIndex.trans h.sectionIndex,
    h'.sectionDelayed.trans h.sectionDelayed, h'.childrenMemory.trans h.childrenMemory, h'.partialMemory.trans h.partialMemory, h'.minX.trans h.minX,
    h'.minY.trans h.minY, h'.maxY.trans h.maxY, h'.colsGap.trans h.colsGap, h'.colWidth.trans h.colWidth, h'.column.trans h.column, h'.index.trans h.index,
    h'.delayed, h'.willReset.trans h.willReset, h'.resetting.trans h.resetting, h'.partsIndex.trans h.partsIndex, h'.diffLast.trans h.diffLast,
    h'.diff.trans h.diff, h'.forward.trans h.forward⟩

theorem elLeft_pos (size : σ → Nat) {e : CEl σ} (h : ElLow good fit W H e) : 0 < elLeft size e := by
  cases e with
  | leaf c st => simp [elLeft]
  | image i => simp [elLeft]
  | group => exact h.elim
  | child => exact h.elim

/-- the loop over what was put off -/
theorem addDelayed_low (hx : BoxEnds exec good fit size) : ∀ (rest pre : List (CEl σ)) (n T fuel : Nat) (f : CBox σ) (w : COut P B C),
    f.delayed = pre ++ rest → (∀ d ∈ rest, ElLow good fit W H d) → TriesOk T n rest → T < 50 → rest.length < fuel →
    ∃ act f' w' rest', f.addDelayed exec fuel pre.length w = .ok (act, f', w') ∧ f'.delayed = pre ++ rest' ∧ BoxFrame { f with delayed := pre ++ rest' } f' ∧
      (∀ d ∈ rest', ElLow good fit W H d) ∧ TriesOk (T + 1) n rest' ∧ (rest'.map (elLeft size)).sum ≤ (rest.map (elLeft size)).sum ∧
      rest'.length ≤ rest.length ∧ rest'.countP Spec.flows ≤ rest.countP Spec.flows ∧
      (act = .next ∨ act = .cont ∧ (∀ d ∈ rest', Spec.flows d = true) ∧ (f'.delayed = [] ∨ f.index + 1 < f.elements.length)) ∧
      (AtTop W H f → rest ≠ [] → TriesOk T n rest' ∧ (rest'.map (elLeft size)).sum < (rest.map (elLeft size)).sum) := by
  intro rest
  induction rest with
  | nil =>
    intro pre n T fuel f w hd _ _ _ hfuel
    obtain ⟨fuel, rfl⟩ : ∃ m, fuel = m + 1 := ⟨fuel - 1, by simp at hfuel; omega⟩
    rw [CBox.addDelayed, hd]
    simp only [List.append_nil, List.getElem?_eq_none (le_refl pre.length)]
    refine ⟨_, f, w, [], rfl, by simpa using hd, ?_, by simp, trivial, le_refl _, le_refl _, le_refl _, ?_, by simp⟩
    · have : ({ f with delayed := pre ++ [] } : CBox σ) = f := by rw [← hd]
      rw [this]; exact BoxFrame.refl f
    · simp only [List.append_nil] at hd
      by_cases hc : pre ≠ [] ∧ f.elements.length ≤ f.index + 1
      · left; rw [if_pos hc]
      · right
        rw [if_neg hc]
        refine ⟨rfl, by simp, ?_⟩
        rw [hd]
        by_contra hcon
        rw [not_or] at hcon
        exact hc ⟨hcon.1, by omega⟩
  | cons e l ih =>
    intro pre n T fuel f w hd hlow htr hT hfuel
    obtain ⟨fuel, rfl⟩ : ∃ m, fuel = m + 1 := ⟨fuel - 1, by simp at hfuel; omega⟩
    have he := hlow e (by simp)
    have h1 : f.delayed[pre.length]? = some e := by rw [hd]; simp
    obtain ⟨a, e', f1, w1, hp, ha⟩ := process_low (f := f) (w := w) hx he (by have := htr.1; omega)
    have hfr := (process_simple (elLow_simple he) hp).frame
    have hfr' := hfr.delayed
    have hgone := (process_simple (elLow_simple he) hp).gone
    rw [CBox.addDelayed, h1]
    simp only [hp]
    have hlen : l.length < fuel := by simp at hfuel; omega
    cases had : a.delayed with
    | none =>
      have hrep : replaceAt f1.delayed pre.length none = pre ++ l := by
        rw [hfr', hd]; simp [replaceAt, List.eraseIdx_append_of_length_le]
      rw [if_neg (by simp [(hgone had).1])]
      simp only [(hgone had).2, Bool.false_eq_true, if_false, hrep]
      obtain ⟨act, f', w', rest', g1, g2, g3, g4, g5, g6, g7, g8, g9, g10⟩ := ih pre (n + 1) T fuel { f1 with delayed := pre ++ l } w1 rfl
        (fun d hd => hlow d (by simp [hd])) htr.2 hT hlen
      refine ⟨act, f', w', rest', g1, g2, frame_step hfr g3, g4, g5.mono (le_refl _) (by omega), ?_, ?_, ?_, ?_, ?_⟩
      · simp only [List.map_cons, List.sum_cons]; omega
      · simp only [List.length_cons]; omega
      · exact g8.trans (by rw [List.countP_cons]; omega)
      · rcases g9 with h | ⟨h, h', h''⟩
        · exact .inl h
        · refine .inr ⟨h, h', ?_⟩
          rcases h'' with h'' | h''
          · exact .inl h''
          · right
            have h'' : f1.index + 1 < f1.elements.length := h''
            rw [hfr.index, hfr.elements] at h''
            exact h''
      · intro _ _
        refine ⟨g5.shift, ?_⟩
        have := elLeft_pos size he
        simp only [List.map_cons, List.sum_cons]; omega
    | some d =>
      have hrep : replaceAt f1.delayed pre.length (some d) = pre ++ d :: l := by
        rw [hfr', hd]; simp [replaceAt]
      have hdl := ha.low d had
      have hds := ha.less d had
      have hdt := ha.tries d had
      obtain ⟨hdf, hdn, hdw⟩ := ha.flows d had
      rw [hrep]
      by_cases hn : a.next = true
      · rw [if_pos hn]
        refine ⟨.next, _, w1, d :: l, rfl, rfl, frame_step hfr (BoxFrame.refl _), ?_, ?_, ?_, le_refl _, ?_, .inl rfl, ?_⟩
        · intro x hx
          rcases List.mem_cons.1 hx with rfl | hx
          · exact hdl
          · exact hlow x (by simp [hx])
        · exact ⟨by have := htr.1; omega, htr.2.mono (by omega) (le_refl _)⟩
        · simp only [List.map_cons, List.sum_cons]; omega
        · rw [List.countP_cons, List.countP_cons, hdf]
        · intro htop _
          obtain ⟨-, t2, t3⟩ := ha.top htop d had
          refine ⟨⟨by have := htr.1; omega, htr.2⟩, ?_⟩
          simp only [List.map_cons, List.sum_cons]; omega
      · rw [if_neg hn]
        have hfl : Spec.flows e = true := by
          rw [hdn] at hn; simpa using hn
        rw [hdw, hfl, if_pos rfl]
        obtain ⟨act, f', w', rest', g1, g2, g3, g4, g5, g6, g7, g8, g9, g10⟩ := ih (pre ++ [d]) (n + 1) T fuel { f1 with delayed := pre ++ d :: l } w1
          (by simp) (fun d hd => hlow d (by simp [hd])) htr.2 hT hlen
        rw [List.length_append, List.length_singleton] at g1
        have ge : pre ++ [d] ++ rest' = pre ++ d :: rest' := by simp
        rw [ge] at g2 g3
        refine ⟨act, f', w', d :: rest', g1, g2, frame_step hfr g3, ?_, ?_, ?_, ?_, ?_, ?_, ?_⟩
        · intro x hx
          rcases List.mem_cons.1 hx with rfl | hx
          · exact hdl
          · exact g4 x hx
        · exact ⟨by have := htr.1; omega, g5⟩
        · simp only [List.map_cons, List.sum_cons]; omega
        · simp only [List.length_cons]; omega
        · rw [List.countP_cons, List.countP_cons, hdf]; omega
        · rcases g9 with h | ⟨h, h', h''⟩
          · exact .inl h
          · refine .inr ⟨h, ?_, ?_⟩
            · intro x hx
              rcases List.mem_cons.1 hx with rfl | hx
              · rw [hdf]; exact hfl
              · exact h' x hx
            · rcases h'' with h'' | h''
              · exact .inl h''
              · right
                have h'' : f1.index + 1 < f1.elements.length := h''
                rw [hfr.index, hfr.elements] at h''
                exact h''
        · intro htop _
          exact absurd (ha.top htop d had).1 hn

/-- what is left of a box -/
def boxLeft (size : σ → Nat) (f : CBox σ) : Nat :=
  (f.delayed.map (elLeft size)).sum + ((f.elements.drop f.index).map fun e => elLeft size e + 1).sum

/-- a box of one column with elements that fit, `F` of which may flow at most -/
structure BoxLow (good : σ → Prop) (fit : σ → Rat → Rat → Prop) (W H : Rat) (F T : Nat) (f : CBox σ) : Prop where
  low : ∀ d ∈ f.delayed, ElLow good fit W H d
  tries : TriesOk T 0 f.delayed
  rest : ∀ e ∈ f.elements.drop f.index, ElLow good fit W H e ∧ elTries e = 0
  count : f.delayed.countP Spec.flows + (f.elements.drop f.index).countP Spec.flows ≤ F
  index : f.index ≤ f.elements.length
  len : f.delayed.length ≤ f.index
  cols : f.cols = 1
  column : f.column = 0
  calm : f.resetting = false

theorem countP_all {l : List (CEl σ)} (h : ∀ d ∈ l, Spec.flows d = true) : l.countP Spec.flows = l.length := by
  rw [List.countP_eq_length]; exact h

/-- the loop over the elements -/
theorem elements_low (hx : BoxEnds exec good fit size) {F : Nat} : ∀ (n fuel : Nat) (f : CBox σ) (w : COut P B C), n = f.elements.length - f.index →
    BoxLow good fit W H F (F + 1) f → (∀ d ∈ f.delayed, Spec.flows d = true) → n < fuel →
    ∃ act f' w', contentElements exec fuel [f] w = .ok (act, [f'], w') ∧ BoxLow good fit W H F (F + 1) f' ∧ f'.elements.length = f.elements.length ∧
      f'.minY = f.minY ∧ f'.maxY = f.maxY ∧ f'.colWidth = f.colWidth ∧
      boxLeft size f' ≤ boxLeft size f ∧ (0 < n → boxLeft size f' < boxLeft size f) ∧
      (act = .next ∨ act = .cont ∧ f'.index = f'.elements.length ∧ ∀ d ∈ f'.delayed, Spec.flows d = true) := by
  intro n
  induction n with
  | zero =>
    intro fuel f w hn hf hfl hfuel
    obtain ⟨fuel, rfl⟩ : ∃ m, fuel = m + 1 := ⟨fuel - 1, by omega⟩
    have hi : f.index = f.elements.length := by have := hf.index; omega
    rw [contentElements, List.getElem?_eq_none (by omega)]
    exact ⟨.cont, f, w, rfl, hf, rfl, rfl, rfl, rfl, le_refl _, by omega, .inr ⟨rfl, hi, hfl⟩⟩
  | succ n ih =>
    intro fuel f w hn hf hfl hfuel
    obtain ⟨fuel, rfl⟩ : ∃ m, fuel = m + 1 := ⟨fuel - 1, by omega⟩
    have hi : f.index < f.elements.length := by omega
    have hdrop : f.elements.drop f.index = f.elements[f.index] :: f.elements.drop (f.index + 1) := List.drop_eq_getElem_cons hi
    generalize he : f.elements[f.index] = e at hdrop
    obtain ⟨helow, het⟩ := hf.rest e (by rw [hdrop]; simp)
    have h1 : f.elements[f.index]? = some e := by rw [List.getElem?_eq_getElem hi, he]
    obtain ⟨a, e', f1, w1, hp, ha⟩ := process_low (f := f) (w := w) hx helow (by omega)
    have hs1 := process_simple (elLow_simple helow) hp
    have hfr := hs1.frame
    rw [contentElements_flat exec fuel f [] w h1 (simple_flat (elLow_simple helow)), hp]
    simp only
    have hdl : (f1.after a e').delayed = f.delayed ++ a.delayed.toList := by simp [CBox.after, hfr.delayed]
    have hel : (f1.after a e').elements = f.elements.set f.index e' := by simp [CBox.after, hfr.elements, hfr.index]
    have hix : (f1.after a e').index = f.index + 1 := by simp [CBox.after, hfr.index]
    have hdr : (f1.after a e').elements.drop (f1.after a e').index = f.elements.drop (f.index + 1) := by
      rw [hel, hix, List.drop_set]; simp
    have hcnt := hf.count
    rw [hdrop, List.countP_cons, countP_all hfl] at hcnt
    have hb : BoxLow good fit W H F (F + 1) (f1.after a e') := by
      refine ⟨?_, ?_, ?_, ?_, ?_, ?_, hfr.cols.trans hf.cols, hfr.column.trans hf.column, hfr.resetting.trans hf.calm⟩
      · intro d hd
        rw [hdl, List.mem_append, Option.mem_toList] at hd
        rcases hd with hd | hd
        · exact hf.low d hd
        · exact ha.low d hd
      · rw [hdl]
        refine hf.tries.append ?_
        cases had : a.delayed with
        | none => trivial
        | some d =>
          refine ⟨?_, trivial⟩
          have := ha.tries d had
          rw [het] at this
          omega
      · intro x hx
        rw [hdr] at hx
        exact hf.rest x (by rw [hdrop]; simp [hx])
      · rw [hdr, hdl, List.countP_append, countP_all hfl]
        cases had : a.delayed with
        | none => simp; omega
        | some d =>
          have := (ha.flows d had).1
          simp [this]; omega
      · rw [hix, hel, List.length_set]; omega
      · rw [hdl, hix, List.length_append]
        have := hf.len
        have : a.delayed.toList.length ≤ 1 := by cases a.delayed <;> simp
        omega
    have hleft : boxLeft size (f1.after a e') < boxLeft size f := by
      unfold boxLeft
      rw [hdr, hdl, hdrop, List.map_append, List.sum_append, List.map_cons, List.sum_cons]
      cases had : a.delayed with
      | none => simp
      | some d =>
        have := ha.less d had
        simp; omega
    by_cases hn' : a.next = true
    · rw [if_pos hn']
      exact ⟨.next, _, w1, rfl, hb, by rw [hel, List.length_set], hfr.minY, hfr.maxY, hfr.colWidth, hleft.le, fun _ => hleft, .inl rfl⟩
    · rw [if_neg hn']
      have hfl' : ∀ d ∈ (f1.after a e').delayed, Spec.flows d = true := by
        intro d hd
        rw [hdl, List.mem_append, Option.mem_toList] at hd
        rcases hd with hd | hd
        · exact hfl d hd
        · obtain ⟨t1, t2, -⟩ := ha.flows d hd
          rw [t1]
          rw [t2] at hn'
          simpa using hn'
      obtain ⟨act, f', w', g1, g2, g3, g4, g5, g6, g7, g8, g9⟩ := ih fuel (f1.after a e') w1 (by rw [hel, hix, List.length_set]; omega) hb hfl' (by omega)
      exact ⟨act, f', w', g1, g2, by rw [g3, hel, List.length_set], g4.trans hfr.minY, g5.trans hfr.maxY, g6.trans hfr.colWidth, by omega, fun _ => by omega, g9⟩

theorem next_interrupts {f : CBox σ} (hc : f.cols = 1) (hcol : f.column = 0) (hr : f.resetting = false) (w : COut P B C) :
    answerAct .next [f] w = (.interrupt, [{ f with sectionIndex := f.index, sectionDelayed := f.delayed, childrenMemory := [] }], w) := by
  simp only [answerAct, nextSection]
  rw [if_pos (by rw [hcol, hc]), if_neg (by rw [hr]; simp)]
  rfl

/-- the box at the end of a page that was not the last one -/
def CBox.rested (f : CBox σ) : CBox σ := { f with sectionIndex := f.index, sectionDelayed := f.delayed, childrenMemory := [] }

theorem BoxLow.rested {F T : Nat} {f : CBox σ} (h : BoxLow good fit W H F T f) : BoxLow good fit W H F T f.rested :=
  ⟨h.1, h.2, h.3, h.4, h.5, h.6, h.7, h.8, h.9⟩

theorem BoxLow.mono {F T T' : Nat} {f : CBox σ} (h : BoxLow good fit W H F T f) (hT : T ≤ T') : BoxLow good fit W H F T' f :=
  ⟨h.1, h.2.mono hT (le_refl _), h.3, h.4, h.5, h.6, h.7, h.8, h.9⟩

/-- the loop over the elements waiting -/
theorem delayed_low (hx : BoxEnds exec good fit size) {F T fuel : Nat} {f : CBox σ} {w : COut P B C} (hT : T < 50)
    (hf : BoxLow good fit W H F T f) (hfuel : f.elements.length < fuel) :
    ∃ act f' w', f.addDelayed exec fuel 0 w = .ok (act, f', w') ∧ BoxLow good fit W H F (T + 1) f' ∧ f'.index = f.index ∧ f'.elements = f.elements ∧
      boxLeft size f' ≤ boxLeft size f ∧ (act = .next ∨ act = .cont ∧ (∀ d ∈ f'.delayed, Spec.flows d = true) ∧ (f'.delayed = [] ∨ f.index + 1 < f.elements.length)) ∧
      (AtTop W H f ∧ f.delayed ≠ [] → BoxLow good fit W H F T f' ∧ boxLeft size f' < boxLeft size f) := by
  have hidx := hf.index
  have hlen := hf.len
  obtain ⟨act, f1, w1, rest, g1, g2, g3, g4, g5, g6, g7, g8, g9, g10⟩ := addDelayed_low hx f.delayed [] 0 T fuel f w rfl hf.low hf.tries hT (by omega)
  simp only [List.nil_append, List.length_nil] at g1 g2 g3
  have gi : f1.index = f.index := g3.index
  have ge : f1.elements = f.elements := g3.elements
  have hb : ∀ T', TriesOk T' 0 rest → BoxLow good fit W H F T' f1 := by
    intro T' h
    refine ⟨by rw [g2]; exact g4, by rw [g2]; exact h, by rw [gi, ge]; exact hf.rest, ?_, by rw [gi, ge]; exact hidx, by rw [g2, gi]; omega, g3.cols.trans hf.cols,
      g3.column.trans hf.column, g3.resetting.trans hf.calm⟩
    have := hf.count
    rw [gi, ge, g2]; omega
  refine ⟨act, f1, w1, g1, hb _ g5, gi, ge, ?_, ?_, ?_⟩
  · unfold boxLeft; rw [gi, ge, g2]; omega
  · rcases g9 with h | ⟨h, h', h''⟩
    · exact .inl h
    · exact .inr ⟨h, by rw [g2]; exact h', h''⟩
  · rintro ⟨h1, h2⟩
    obtain ⟨t1, t2⟩ := g10 h1 h2
    refine ⟨hb _ t1, ?_⟩
    unfold boxLeft; rw [gi, ge, g2]; omega

theorem addDelayed_none {fuel : Nat} {f : CBox σ} (w : COut P B C) (h : f.delayed = []) : f.addDelayed exec (fuel + 1) 0 w = .ok (.cont, f, w) := by
  rw [CBox.addDelayed, h]; rfl

/-- a page once every element has been tried -/
theorem contentRun_tail (hx : BoxEnds exec good fit size) {F T fuel : Nat} {f : CBox σ} {w : COut P B C} (hT : T < 50)
    (hf : BoxLow good fit W H F T f) (hi : f.index = f.elements.length) (hfuel : f.elements.length + 1 < fuel) :
    ∃ act f' w', contentRun exec fuel [f] w = .ok (act, [f'], w') ∧ f'.cols = 1 ∧ (act = .cont ∨ act = .interrupt ∧ ∃ f'' : CBox σ, f' = f''.rested ∧
      BoxLow good fit W H F (T + 1) f' ∧ f'.elements.length = f.elements.length ∧ f'.index = f'.elements.length ∧ boxLeft size f' ≤ boxLeft size f ∧
      (AtTop W H f ∨ f.delayed = [] → BoxLow good fit W H F T f' ∧ boxLeft size f' < boxLeft size f)) := by
  obtain ⟨fuel, rfl⟩ : ∃ m, fuel = m + 1 := ⟨fuel - 1, by omega⟩
  obtain ⟨act, f1, w1, g1, g2, g3, g4, g5, g6, g7⟩ := delayed_low (w := w) hx hT hf (fuel := fuel) (by omega)
  rw [contentRun_succ, g1]
  simp only
  rcases g6 with rfl | ⟨rfl, hfl, hd⟩
  · rw [next_interrupts g2.cols g2.column g2.calm]
    refine ⟨_, f1.rested, _, rfl, g2.cols, .inr ⟨rfl, f1, rfl, g2.rested, by simp [CBox.rested, g4], by simp [CBox.rested, g3, g4, hi], g5, ?_⟩⟩
    intro htop
    by_cases hd : f.delayed = []
    · obtain ⟨m, rfl⟩ : ∃ m, fuel = m + 1 := ⟨fuel - 1, by omega⟩
      rw [addDelayed_none w hd] at g1
      simp at g1
    · obtain ⟨t1, t2⟩ := g7 ⟨htop.resolve_right hd, hd⟩
      exact ⟨t1.rested, t2⟩
  · have hd := hd.resolve_right (by omega)
    rw [show answerAct .cont [f1] w1 = (.cont, [f1], w1) from rfl]
    simp only [afterDelayed]
    obtain ⟨m, rfl⟩ : ∃ m, fuel = m + 1 := ⟨fuel - 1, by omega⟩
    rw [contentElements, List.getElem?_eq_none (by rw [g3, g4]; omega)]
    simp only
    rw [show answerAct .cont [f1] w1 = (.cont, [f1], w1) from rfl]
    simp only [afterElements]
    rw [if_neg (by simp [hd]), if_neg (by rw [g2.cols]; omega), if_neg (by rw [g2.calm]; simp)]
    exact ⟨_, _, _, rfl, g2.cols, .inl rfl⟩

/-- how often an element may have been tried: once more when all elements have had their turn -/
def triesBound (F : Nat) (f : CBox σ) : Nat := if f.index = f.elements.length then F + 2 else F + 1

/-- one page: it is the last one, or something is left, less than before if it is a full page -/
theorem contentRun_low (hx : BoxEnds exec good fit size) {F fuel : Nat} {f : CBox σ} {w : COut P B C} (hF : F < 48)
    (hf : BoxLow good fit W H F (triesBound F f) f) (htop : AtTop W H f ∨ f.delayed = [])
    (hfuel : f.elements.length + 2 < fuel) :
    ∃ act f' w', contentRun exec fuel [f] w = .ok (act, [f'], w') ∧ f'.cols = 1 ∧ (act = .cont ∨ act = .interrupt ∧ ∃ f'' : CBox σ, f' = f''.rested ∧
      BoxLow good fit W H F (triesBound F f') f' ∧ f'.elements.length = f.elements.length ∧ boxLeft size f' < boxLeft size f) := by
  by_cases hi : f.index = f.elements.length
  · rw [triesBound, if_pos hi] at hf
    obtain ⟨act, f', w', g1, g2, g3⟩ := contentRun_tail (w := w) hx (by omega) hf hi (fuel := fuel) (by omega)
    refine ⟨act, f', w', g1, g2, ?_⟩
    rcases g3 with h | ⟨h, f'', h1, h2, h3, h4, h5, h6⟩
    · exact .inl h
    · obtain ⟨t1, t2⟩ := h6 htop
      exact .inr ⟨h, f'', h1, by rw [triesBound, if_pos h4]; exact t1, h3, t2⟩
  · rw [triesBound, if_neg hi] at hf
    have hlt : f.index < f.elements.length := by have := hf.index; omega
    obtain ⟨fuel, rfl⟩ : ∃ m, fuel = m + 1 := ⟨fuel - 1, by omega⟩
    have key : ∃ act f1 w1, f.addDelayed exec fuel 0 w = .ok (act, f1, w1) ∧ BoxLow good fit W H F (F + 1) f1 ∧ f1.index = f.index ∧ f1.elements = f.elements ∧
        (act = .next ∧ boxLeft size f1 < boxLeft size f ∨ act = .cont ∧ (∀ d ∈ f1.delayed, Spec.flows d = true) ∧ boxLeft size f1 ≤ boxLeft size f) := by
      by_cases hd : f.delayed = []
      · obtain ⟨m, rfl⟩ : ∃ m, fuel = m + 1 := ⟨fuel - 1, by omega⟩
        exact ⟨_, _, _, addDelayed_none w hd, hf, rfl, rfl, .inr ⟨rfl, by simp [hd], le_refl _⟩⟩
      · obtain ⟨act, f1, w1, g1, g2, g3, g4, g5, g6, g7⟩ := delayed_low (w := w) hx (by omega) hf (fuel := fuel) (by omega)
        obtain ⟨t1, t2⟩ := g7 ⟨htop.resolve_right hd, hd⟩
        refine ⟨act, f1, w1, g1, t1, g3, g4, ?_⟩
        rcases g6 with h | ⟨h, h', -⟩
        · exact .inl ⟨h, t2⟩
        · exact .inr ⟨h, h', g5⟩
    obtain ⟨act, f1, w1, g1, g2, g3, g4, g5⟩ := key
    rw [contentRun_succ, g1]
    simp only
    rcases g5 with ⟨rfl, hl⟩ | ⟨rfl, hfl, hl⟩
    · rw [next_interrupts g2.cols g2.column g2.calm]
      refine ⟨_, f1.rested, _, rfl, g2.cols, .inr ⟨rfl, f1, rfl, ?_, by simp [CBox.rested, g4], hl⟩⟩
      exact g2.rested.mono (by unfold triesBound; split <;> omega)
    · rw [show answerAct .cont [f1] w1 = (.cont, [f1], w1) from rfl]
      simp only [afterDelayed]
      obtain ⟨act, f2, w2, k1, k2, k3, k4, k5, k6, k7, k8, k9⟩ := elements_low hx _ fuel f1 w1 rfl g2 hfl (by rw [g3, g4]; omega)
      rw [k1]
      have k8 := k8 (by rw [g3, g4]; omega)
      rw [g4] at k3
      simp only
      rcases k9 with rfl | ⟨rfl, hi2, hfl2⟩
      · rw [next_interrupts k2.cols k2.column k2.calm]
        refine ⟨_, f2.rested, _, rfl, k2.cols, .inr ⟨rfl, f2, rfl, ?_, k3, lt_of_lt_of_le (b := boxLeft size f1) k8 hl⟩⟩
        exact k2.rested.mono (by unfold triesBound; split <;> omega)
      · rw [show answerAct .cont [f2] w2 = (.cont, [f2], w2) from rfl]
        simp only [afterElements]
        by_cases hd : f2.delayed = []
        · rw [if_neg (by simp [hd]), if_neg (by rw [k2.cols]; omega), if_neg (by rw [k2.calm]; simp)]
          exact ⟨_, _, _, rfl, k2.cols, .inl rfl⟩
        · rw [if_pos hd]
          obtain ⟨act, f', w', g1, g2, g3⟩ := contentRun_tail (w := w2) hx (by omega) k2 hi2 (fuel := fuel) (by omega)
          refine ⟨act, f', w', g1, g2, ?_⟩
          rcases g3 with h | ⟨h, f'', h1, h2, h3, h4, h5, h6⟩
          · exact .inl h
          · exact .inr ⟨h, f'', h1, by rw [triesBound, if_pos h4]; exact h2, h3.trans k3, by omega⟩

/-- what is known of a box between two pages -/
structure BetweenPages (good : σ → Prop) (fit : σ → Rat → Rat → Prop) (W H : Rat) (F n : Nat) (f : CBox σ) : Prop where
  ok : BoxLow good fit W H F (triesBound F f) f
  index : f.sectionIndex = f.index
  delayed : f.sectionDelayed = f.delayed
  length : f.elements.length = n

theorem run_low (hx : BoxEnds exec good fit size) {F n fuel : Nat} (hF : F < 48) (hfuel : n + 2 < fuel) {s : CContent σ P B C} {f : CBox σ} (hc : s.cols = 1)
    (hb : s.box.getD (CBox.blank s.cols s.gap s.elements true) = f) (hf : BetweenPages good fit W H F n f) {x y w h : Rat}
    (hp : (w = W ∧ h = H ∧ 0 ≤ H) ∨ f.delayed = []) :
    ∃ s', s.run exec fuel x y w h = .ok s' ∧ (s'.finished = true ∨ s'.cols = 1 ∧ s'.finished = s.finished ∧
      ∃ f', s'.box = some f' ∧ BetweenPages good fit W H F n f' ∧ boxLeft size f' < boxLeft size f) := by
  unfold CContent.run
  rw [if_neg (by omega), hb]
  simp only
  have hok : BoxLow good fit W H F (triesBound F (f.setup x w y (y - h) 0)) (f.setup x w y (y - h) 0) := by
    obtain ⟨a1, a2, a3, a4, a5, a6, a7, a8, a9⟩ := hf.ok
    have e : triesBound F (f.setup x w y (y - h) 0) = triesBound F f := by simp only [triesBound, CBox.setup, hf.index]
    rw [e]
    refine ⟨?_, ?_, ?_, ?_, ?_, ?_, a7, rfl, rfl⟩ <;> simp only [CBox.setup, hf.index, hf.delayed] <;> assumption
  have hleft : boxLeft size (f.setup x w y (y - h) 0) = boxLeft size f := by simp only [boxLeft, CBox.setup, hf.index, hf.delayed]
  have htop : AtTop W H (f.setup x w y (y - h) 0) ∨ (f.setup x w y (y - h) 0).delayed = [] := by
    rcases hp with ⟨rfl, rfl, hp⟩ | hp
    · refine .inl ⟨rfl, ?_, ?_, hp⟩
      · simp only [CBox.setup, hf.ok.cols]; simp
      · simp only [CBox.setup]; ring
    · exact .inr (by simp only [CBox.setup, hf.delayed, hp])
  obtain ⟨act, f', w', g1, g2, g3⟩ := contentRun_low (w := ⟨[], [], []⟩) hx hF hok htop (fuel := fuel) (by
    have : (f.setup x w y (y - h) 0).elements = f.elements := rfl
    rw [this, hf.length]; omega)
  rw [g1]
  refine ⟨_, rfl, ?_⟩
  rcases g3 with rfl | ⟨rfl, f'', h1, h2, h3, h4⟩
  · left; simp
  · right
    refine ⟨hc, by simp, f', rfl, ⟨h2, by rw [h1]; rfl, by rw [h1]; rfl, h3.trans hf.length⟩, by omega⟩

/-- the pages after the first one -/
theorem boxRuns_low (hx : BoxEnds exec good fit size) {F n fuel : Nat} (hF : F < 48) (hfuel : n + 2 < fuel) (hH : 0 ≤ H) : ∀ (pages : List (Rat × Rat × Rat × Rat))
    (s : CContent σ P B C) (f : CBox σ), (∀ r ∈ pages, r.2.2 = (W, H)) → s.cols = 1 → s.box = some f → BetweenPages good fit W H F n f →
    boxLeft size f < pages.length → ∃ ps s', s.runs exec fuel pages = .ok (ps, s') ∧ s'.finished = true := by
  intro pages
  induction pages with
  | nil => intro s f _ _ _ _ h; exact absurd h (Nat.not_lt_zero _)
  | cons r l ih =>
    intro s f hp hc hb hf hl
    obtain ⟨x, y, w, h⟩ := r
    unfold CContent.runs
    by_cases hfin : s.finished = true
    · rw [if_pos hfin]; exact ⟨_, _, rfl, hfin⟩
    rw [if_neg hfin]
    have hr := hp (x, y, w, h) (by simp)
    simp only [Prod.mk.injEq] at hr
    obtain ⟨s1, g1, g2⟩ := run_low hx hF hfuel (s := s) (f := f) (x := x) (y := y) (w := w) (h := h) hc (by rw [hb]; rfl) hf (.inl ⟨hr.1, hr.2, hH⟩)
    rw [g1]
    simp only
    rcases g2 with g2 | ⟨g2, g3, f1, g4, g5, g6⟩
    · cases l with
      | nil => exact ⟨_, _, rfl, g2⟩
      | cons r l =>
        obtain ⟨x', y', w', h'⟩ := r
        unfold CContent.runs
        rw [if_pos g2]
        exact ⟨_, _, rfl, g2⟩
    · obtain ⟨ps, s', k1, k2⟩ := ih s1 f1 (fun r hr => hp r (by simp [hr])) g2 g4 g5 (by simp only [List.length_cons] at hl; omega)
      rw [k1]
      exact ⟨_, _, rfl, k2⟩

/-- all pages -/
theorem runs_end (hx : BoxEnds exec good fit size) {fuel : Nat} {gap : Option Rat} {els : List (CEl σ)} (hF : els.countP Spec.flows < 48) (hfuel : els.length + 2 < fuel)
    (hH : 0 ≤ H) (hels : ∀ e ∈ els, ElLow good fit W H e ∧ elTries e = 0) (first : Rat × Rat × Rat × Rat) {pages : List (Rat × Rat × Rat × Rat)}
    (hp : ∀ r ∈ pages, r.2.2 = (W, H)) (hl : (els.map fun e => elLeft size e + 1).sum ≤ pages.length) :
    ∃ ps s', (CContent.new 1 gap els : CContent σ P B C).runs exec fuel (first :: pages) = .ok (ps, s') ∧ s'.finished = true := by
  obtain ⟨x, y, w, h⟩ := first
  have hb : BetweenPages good fit W H (els.countP Spec.flows) els.length (CBox.blank 1 gap els true) := by
    refine ⟨⟨by simp [CBox.blank], trivial, ?_, by simp [CBox.blank], by simp [CBox.blank], by simp [CBox.blank], rfl, rfl, rfl⟩, rfl, rfl, rfl⟩
    exact fun e he => hels e (by simpa [CBox.blank] using he)
  have hleft : boxLeft size (CBox.blank 1 gap els true) = (els.map fun e => elLeft size e + 1).sum := by simp [boxLeft, CBox.blank]
  unfold CContent.runs
  rw [if_neg (by simp [CContent.new])]
  obtain ⟨s1, g1, g2⟩ := run_low hx hF hfuel (s := (CContent.new 1 gap els : CContent σ P B C)) (f := CBox.blank 1 gap els true) (x := x) (y := y) (w := w) (h := h) rfl rfl hb (.inr rfl)
  rw [g1]
  simp only
  rcases g2 with g2 | ⟨g2, g3, f1, g4, g5, g6⟩
  · cases pages with
    | nil => exact ⟨_, _, rfl, g2⟩
    | cons r l =>
      obtain ⟨x', y', w', h'⟩ := r
      unfold CContent.runs
      rw [if_pos g2]
      exact ⟨_, _, rfl, g2⟩
  · obtain ⟨ps, s', k1, k2⟩ := boxRuns_low hx hF hfuel hH pages s1 f1 hp g2 g4 g5 (by omega)
    rw [k1]
    exact ⟨_, _, rfl, k2⟩

end

end Verif
