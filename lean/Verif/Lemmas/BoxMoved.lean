import Verif.Spec.Moved
import Mathlib.Tactic.Ring
import Mathlib.Tactic.SplitIfs
/-! A content box in a moved rectangle: every function of Model/Content on a moved box gives the moved result. `e` changes what the states of paragraphs and tables remember of places,
`m` moves a part. -/
namespace Verif

variable {σ P B C : Type}

def CellOut.mv (e : σ → σ) (m : P → P) (dx dy : Rat) (o : CellOut σ P B C) : CellOut σ P B C :=
  ⟨o.parts.map m, o.lines.map (BLine.mv dx dy), o.fills.map (TFill.mv dx dy), o.height, o.finished, e o.next⟩

/-- in a moved rectangle the result of `exec'` is that of `exec`, moved -/
def Shifts (exec exec' : σ → Rat → Rat → Rat → Rat → Except PyErr (CellOut σ P B C)) (e : σ → σ) (m : P → P) (dx dy : Rat) : Prop :=
  ∀ c x y w h, exec' (e c) (x + dx) (y + dy) w h = (exec c x y w h).map (CellOut.mv e m dx dy)

def GEl.mp (e : σ → σ) : GEl σ → GEl σ
  | .leaf c st => .leaf (e c) st
  | .image i => .image i

mutual
def CEl.mp (e : σ → σ) : CEl σ → CEl σ
  | .leaf c st => .leaf (e c) st
  | .image i => .image i
  | .group l t st => .group (l.map (GEl.mp e)) t st
  | .child cols gap els st => .child cols gap (CEl.mps e els) st

def CEl.mps (e : σ → σ) : List (CEl σ) → List (CEl σ)
  | [] => []
  | a :: l => a.mp e :: CEl.mps e l
end

theorem CEl.mps_eq (e : σ → σ) (l : List (CEl σ)) : CEl.mps e l = l.map (CEl.mp e) := by
  induction l with
  | nil => rfl
  | cons a l ih => rw [CEl.mps, ih]; rfl

def CMem.mp (e : σ → σ) (c : CMem σ) : CMem σ := ⟨c.index, c.delayed.map (CEl.mp e)⟩

def CBox.mv (e : σ → σ) (dx dy : Rat) (f : CBox σ) : CBox σ :=
  { f with
    elements := f.elements.map (CEl.mp e)
    sectionDelayed := f.sectionDelayed.map (CEl.mp e)
    childrenMemory := f.childrenMemory.map (CMem.mp e)
    partialMemory := f.partialMemory.map (List.map (CMem.mp e))
    minX := f.minX + dx
    minY := f.minY + dy
    maxY := f.maxY + dy
    y := f.y + dy
    delayed := f.delayed.map (CEl.mp e) }

def COut.mv (m : P → P) (dx dy : Rat) (w : COut P B C) : COut P B C :=
  ⟨w.parts.map (CPart.mv m dx dy), w.lines.map (BLine.mv dx dy), w.fills.map (TFill.mv dx dy)⟩

section
variable (e : σ → σ) (m : P → P) (dx dy : Rat)

theorem toBeginning_mv (f : CBox σ) : (f.mv e dx dy).toBeginning = f.toBeginning.mv e dx dy := rfl

theorem setup_mv (f : CBox σ) (dx' dy' minX width minY maxY : Rat) (n : Nat) :
    (f.mv e dx' dy').setup (minX + dx) width (minY + dy) (maxY + dy) n = (f.setup minX width minY maxY n).mv e dx dy := by
  simp only [CBox.setup, CBox.mv]

theorem blank_mp (cols : Nat) (gap : Option Rat) (els : List (CEl σ)) (last : Bool) :
    CBox.blank cols gap (els.map (CEl.mp e)) last = (CBox.blank cols gap els last).mv e 0 0 := by
  simp [CBox.blank, CBox.mv]

theorem colX_mv (f : CBox σ) : (f.mv e dx dy).colX = f.colX + dx := by simp only [CBox.colX, CBox.mv]; ring

theorem elX_mv (f : CBox σ) (st : CStyle) : (f.mv e dx dy).elX st = f.elX st + dx := by simp only [CBox.elX, colX_mv]; ring

theorem room_mv (f : CBox σ) : (f.mv e dx dy).room = f.room := by simp only [CBox.room, CBox.mv]; congr 1; ring

theorem descend_mv (f : CBox σ) (st : CStyle) (t : Bool) : (f.mv e dx dy).descend st t = (f.descend st t).mv e dx dy := by
  unfold CBox.descend
  by_cases h : f.starting
  · simp [CBox.mv, h]
  · simp only [CBox.mv, h]; simp; ring

theorem took_mv (f : CBox σ) (y0 h : Rat) (st : CStyle) : (f.mv e dx dy).took (y0 + dy) h st = (f.took y0 h st).mv e dx dy := by
  unfold CBox.took
  split_ifs
  · simp only [CBox.mv]; simp; ring
  · rfl

theorem add_mv (w : COut P B C) (o : CellOut σ P B C) : (w.mv m dx dy).add (o.mv e m dx dy) = (w.add o).mv m dx dy := by
  simp [COut.add, COut.mv, CellOut.mv, CPart.mv, List.map_map, Function.comp_def]

variable {e m dx dy} {exec exec' : σ → Rat → Rat → Rat → Rat → Except PyErr (CellOut σ P B C)}

theorem leaf_mv (hE : Shifts exec exec' e m dx dy) (f : CBox σ) (w : COut P B C) (c : σ) (st : CStyle) (a t : Bool) :
    (f.mv e dx dy).leaf exec' (w.mv m dx dy) (e c) st a t = (f.leaf exec w c st a t).map fun r => (r.1.map e, r.2.1.mv e dx dy, r.2.2.mv m dx dy) := by
  unfold CBox.leaf
  simp only [descend_mv, elX_mv, room_mv]
  rw [show ((f.descend st t).mv e dx dy).y = (f.descend st t).y + dy from rfl, show ((f.descend st t).mv e dx dy).elWidth st = (f.descend st t).elWidth st from rfl, hE]
  cases exec c ((f.descend st t).elX st) (f.descend st t).y ((f.descend st t).elWidth st) (f.descend st t).room with
  | error x => rfl
  | ok o =>
    simp only [Except.map, add_mv]
    rw [show (f.mv e dx dy).y = f.y + dy from rfl, took_mv]
    cases a <;> cases h : o.finished <;> simp [CellOut.mv, h]

theorem fit_mv (i : CImg) (x w r : Rat) : i.fit (x + dx) w r = (i.fit x w r).map fun p => (p.1 + dx, p.2) := by
  unfold CImg.fit
  dsimp only
  by_cases h : w * i.height / i.width < r
  · rw [if_pos h, if_pos h]; rfl
  · rw [if_neg h, if_neg h]
    cases i.style.minHeight with
    | none => rfl
    | some k =>
      dsimp only
      split_ifs <;> simp <;> ring

theorem image_mv (f : CBox σ) (w : COut P B C) (i : CImg) (a t : Bool) :
    (f.mv e dx dy).image (w.mv m dx dy) i a t = (f.image w i a t).map fun r => (r.1, r.2.1.mv e dx dy, r.2.2.mv m dx dy) := by
  unfold CBox.image
  simp only [descend_mv, elX_mv, room_mv]
  rw [show ((f.descend i.style t).mv e dx dy).elWidth i.style = (f.descend i.style t).elWidth i.style from rfl, fit_mv]
  by_cases h : i.width = 0
  · rw [if_pos h, if_pos h]; rfl
  · rw [if_neg h, if_neg h]
    cases i.fit ((f.descend i.style t).elX i.style) ((f.descend i.style t).elWidth i.style) (f.descend i.style t).room with
    | none =>
      simp only [Option.map]
      split_ifs <;> rfl
    | some p =>
      have hy : (f.descend i.style t).y + dy - p.2.2 = (f.descend i.style t).y - p.2.2 + dy := by ring
      simp only [Option.map, Except.map]
      cases a <;> simp [CBox.mv, COut.mv, CPart.mv, hy]

theorem groupEl_mv (hE : Shifts exec exec' e m dx dy) (f : CBox σ) (w : COut P B C) (g : GEl σ) (a t : Bool) (mh : Option Rat) :
    (f.mv e dx dy).groupEl exec' (w.mv m dx dy) (g.mp e) a t mh
      = (f.groupEl exec w g a t mh).map fun r => (r.1, r.2.1.mp e, r.2.2.1.mv e dx dy, r.2.2.2.mv m dx dy) := by
  cases g with
  | leaf c st =>
    simp only [CBox.groupEl, GEl.mp, leaf_mv hE]
    cases f.leaf exec w c st a t with
    | error x => rfl
    | ok r => simp [Except.map, GEl.mp]
  | image i =>
    simp only [CBox.groupEl, GEl.mp, image_mv]
    cases h : f.image w { i with style := { i.style with minHeight := mh <|> i.style.minHeight, shrink := true } } a t with
    | error x => simp [Except.map]
    | ok r =>
      obtain ⟨r1, r2, r3⟩ := r
      cases r1 <;> simp [Except.map, GEl.mp]

theorem groupTry_mv (hE : Shifts exec exec' e m dx dy) (w : COut P B C) (l : List (GEl σ)) : ∀ (t : Bool) (f : CBox σ),
    CBox.groupTry exec' (w.mv m dx dy) t (l.map (GEl.mp e)) (f.mv e dx dy) = (CBox.groupTry exec w t l f).map fun r => (r.1, r.2.1.map (GEl.mp e), r.2.2.mv e dx dy) := by
  induction l with
  | nil => intro t f; rfl
  | cons g l ih =>
    intro t f
    simp only [List.map, CBox.groupTry, groupEl_mv hE]
    cases f.groupEl exec w g false t none with
    | error x => rfl
    | ok r =>
      obtain ⟨b, g', f', w'⟩ := r
      cases b with
      | false => simp [Except.map]
      | true =>
        simp only [Except.map, ih]
        cases CBox.groupTry exec w true l f' with
        | error x => rfl
        | ok r => simp [Except.map]

theorem minHeight_mp (g : GEl σ) : (g.mp e).minHeight = g.minHeight := by cases g <;> rfl

theorem groupPut_mv (hE : Shifts exec exec' e m dx dy) (q : Rat) (l : List (GEl σ)) : ∀ (t : Bool) (f : CBox σ) (w : COut P B C),
    CBox.groupPut exec' q t (l.map (GEl.mp e)) (f.mv e dx dy) (w.mv m dx dy)
      = (CBox.groupPut exec q t l f w).map fun r => (r.1.map (GEl.mp e), r.2.1.mv e dx dy, r.2.2.mv m dx dy) := by
  induction l with
  | nil => intro t f w; rfl
  | cons g l ih =>
    intro t f w
    simp only [List.map, CBox.groupPut, groupEl_mv hE, minHeight_mp]
    cases f.groupEl exec w g true t (g.minHeight.map (· * q)) with
    | error x => rfl
    | ok r =>
      obtain ⟨b, g', f', w'⟩ := r
      simp only [Except.map, ih]
      cases CBox.groupPut exec q true l f' w' with
      | error x => rfl
      | ok r => simp [Except.map]

theorem sizes_mp (l : List (GEl σ)) : (l.map (GEl.mp e)).filterMap (·.minHeight) = l.filterMap (·.minHeight) := by
  simp [List.filterMap_map, Function.comp_def, minHeight_mp]

theorem group_mv (hE : Shifts exec exec' e m dx dy) (f : CBox σ) (w : COut P B C) (l : List (GEl σ)) (n : Nat) (st : CStyle) :
    (f.mv e dx dy).group exec' (w.mv m dx dy) (l.map (GEl.mp e)) n st
      = (f.group exec w l n st).map fun r => (r.1, r.2.1.map (GEl.mp e), r.2.2.1, r.2.2.2.1.mv e dx dy, r.2.2.2.2.mv m dx dy) := by
  unfold CBox.group
  have h0 : (if (f.mv e dx dy).starting then f.mv e dx dy else { f.mv e dx dy with y := (f.mv e dx dy).y - st.top })
      = (if f.starting then f else { f with y := f.y - st.top }).mv e dx dy := by
    cases h : f.starting
    · simp only [CBox.mv, h]; simp; ring
    · simp [CBox.mv, h]
  rw [h0, groupTry_mv hE]
  cases CBox.groupTry exec w false l (if f.starting then f else { f with y := f.y - st.top }) with
  | error x => rfl
  | ok r =>
    obtain ⟨b, l1, f1⟩ := r
    cases b with
    | false =>
      simp only [Except.map]
      split_ifs <;> rfl
    | true =>
      simp only [Except.map, sizes_mp]
      by_cases h1 : l1.filterMap (·.minHeight) ≠ [] ∧ (l1.filterMap (·.minHeight)).sum = 0
      · rw [if_pos h1, if_pos h1]
      · rw [if_neg h1, if_neg h1]
        have hr : ((l1.filterMap (·.minHeight)).sum + (f1.mv e dx dy).y - (f1.mv e dx dy).maxY) = ((l1.filterMap (·.minHeight)).sum + f1.y - f1.maxY) := by
          simp only [CBox.mv]; ring
        have hf : { f1.mv e dx dy with y := (f.mv e dx dy).y } = ({ f1 with y := f.y } : CBox σ).mv e dx dy := rfl
        rw [hr, hf, groupPut_mv hE]
        cases CBox.groupPut exec (if l1.filterMap (·.minHeight) = [] ∨ st.shrink = true then 1 else ((l1.filterMap (·.minHeight)).sum + f1.y - f1.maxY) / (l1.filterMap (·.minHeight)).sum)
          false l1 { f1 with y := f.y } w with
        | error x => rfl
        | ok r => rfl

def CAns.mp (e : σ → σ) (a : CAns σ) : CAns σ := ⟨a.delayed.map (CEl.mp e), a.next, a.flow⟩

theorem process_mv (hE : Shifts exec exec' e m dx dy) (f : CBox σ) (w : COut P B C) (a : CEl σ) :
    (f.mv e dx dy).process exec' (w.mv m dx dy) (a.mp e) = (f.process exec w a).map fun r => (r.1.mp e, r.2.1.mp e, r.2.2.1.mv e dx dy, r.2.2.2.mv m dx dy) := by
  cases a with
  | leaf c st =>
    simp only [CBox.process, CEl.mp, leaf_mv hE]
    cases f.leaf exec w c st true true with
    | error x => rfl
    | ok r => obtain ⟨r1, r2⟩ := r; cases r1 <;> simp [Except.map, CAns.mp, CEl.mp]
  | image i =>
    simp only [CBox.process, CEl.mp, image_mv]
    cases f.image w i true true with
    | error x => rfl
    | ok r => obtain ⟨r1, r2⟩ := r; cases r1 <;> simp [Except.map, CAns.mp, CEl.mp]
  | group l n st =>
    simp only [CBox.process, CEl.mp, group_mv hE]
    cases f.group exec w l n st with
    | error x => rfl
    | ok r => obtain ⟨b, r2⟩ := r; cases b <;> simp [Except.map, CAns.mp, CEl.mp]
  | child => rfl

theorem replaceAt_map {α β : Type} (g : α → β) (l : List α) (n : Nat) (d : Option α) : replaceAt (l.map g) n (d.map g) = (replaceAt l n d).map g := by
  cases d with
  | none =>
    simp only [replaceAt, Option.map]
    induction l generalizing n with
    | nil => rfl
    | cons a l ih => cases n with
      | zero => rfl
      | succ n => simp [List.eraseIdx, ih]
  | some a => simp [replaceAt, List.map_set]

theorem addDelayed_mv (hE : Shifts exec exec' e m dx dy) (fuel : Nat) : ∀ (n : Nat) (f : CBox σ) (w : COut P B C),
    CBox.addDelayed exec' fuel n (f.mv e dx dy) (w.mv m dx dy) = (CBox.addDelayed exec fuel n f w).map fun r => (r.1, r.2.1.mv e dx dy, r.2.2.mv m dx dy) := by
  induction fuel with
  | zero => intro n f w; rfl
  | succ fuel ih =>
    intro n f w
    simp only [CBox.addDelayed]
    rw [show (f.mv e dx dy).delayed = f.delayed.map (CEl.mp e) from rfl, List.getElem?_map]
    cases f.delayed[n]? with
    | none => simp [Except.map, CBox.mv]
    | some a =>
      simp only [Option.map, process_mv hE]
      cases f.process exec w a with
      | error x => rfl
      | ok r =>
        obtain ⟨a', _, f', w'⟩ := r
        have hf : ({ f'.mv e dx dy with delayed := replaceAt (f'.mv e dx dy).delayed n (a'.mp e).delayed } : CBox σ)
            = ({ f' with delayed := replaceAt f'.delayed n a'.delayed } : CBox σ).mv e dx dy := by
          simp only [CBox.mv, CAns.mp, replaceAt_map]
        simp only [Except.map]
        rw [hf, ih]
        cases h : a'.next <;> simp [CAns.mp, h, Except.map]

def CSec.mv (dx dy : Rat) : CSec → CSec
  | .pos x y => .pos (x + dx) (y + dy)
  | s => s

theorem nextSection_mv (n : Nat) (stk : List (CBox σ)) : ∀ mem : Option (List (CMem σ)),
    nextSection n (mem.map (List.map (CMem.mp e))) (stk.map (CBox.mv e dx dy)) = ((nextSection n mem stk).1.mv dx dy, (nextSection n mem stk).2.map (CBox.mv e dx dy)) := by
  induction stk with
  | nil => intro mem; rfl
  | cons f anc ih =>
    intro mem
    simp only [List.map, nextSection]
    by_cases h1 : f.column + 1 = f.cols
    · rw [if_pos h1, if_pos (show (f.mv e dx dy).column + 1 = (f.mv e dx dy).cols from h1)]
      by_cases h2 : f.resetting
      · rw [if_pos h2, if_pos (show (f.mv e dx dy).resetting = true from h2)]; rfl
      · rw [if_neg h2, if_neg (show ¬ (f.mv e dx dy).resetting = true from h2)]
        have hm : (mem.map (List.map (CMem.mp e))).getD [] = (mem.getD []).map (CMem.mp e) := by cases mem <;> rfl
        cases anc with
        | nil => simp [hm, CSec.mv, CBox.mv]
        | cons p anc =>
          have hi := ih (some (mem.getD [] ++ [⟨f.index, f.delayed⟩]))
          simp only [Option.map, List.map_append, List.map] at hi
          simp only [List.map, hm]
          obtain ⟨r, anc', hR⟩ : ∃ r a, nextSection n (some (mem.getD [] ++ [⟨f.index, f.delayed⟩])) (p :: anc) = (r, a) := ⟨_, _, rfl⟩
          rw [hR] at hi
          rw [show (⟨(f.mv e dx dy).index, (f.mv e dx dy).delayed⟩ : CMem σ) = CMem.mp e ⟨f.index, f.delayed⟩ from rfl, hi, hR]
          cases r <;> cases mem <;> simp [CSec.mv, CBox.mv, CBox.toBeginning]
    · rw [if_neg h1, if_neg (show ¬ (f.mv e dx dy).column + 1 = (f.mv e dx dy).cols from h1)]
      cases mem with
      | none => simp [CSec.mv, CBox.mv]
      | some k =>
        by_cases h3 : f.delayed = []
        · simp [CSec.mv, CBox.mv, h3, CBox.colX]; ring
        · simp [CSec.mv, CBox.mv, h3]

theorem fine_mv (f : CBox σ) : (f.mv e dx dy).fine = f.fine := rfl

theorem reset_mv (f : CBox σ) (w : COut P B C) :
    (f.mv e dx dy).reset (w.mv m dx dy) = ((f.reset w).1, (f.reset w).2.1.mv e dx dy, (f.reset w).2.2.mv m dx dy) := by
  unfold CBox.reset
  by_cases h : f.fine = true ∧ ¬ f.forward = true
  · rw [if_pos h, if_pos (show (f.mv e dx dy).fine = true ∧ ¬ (f.mv e dx dy).forward = true from h)]
  · rw [if_neg h, if_neg (show ¬ ((f.mv e dx dy).fine = true ∧ ¬ (f.mv e dx dy).forward = true) from h)]
    simp only [fine_mv]
    rw [show (f.mv e dx dy).diff = f.diff from rfl]
    cases hd : f.diff with
    | none => simp [CBox.mv, CBox.toBeginning, COut.mv, List.map_take]; ring
    | some d =>
      cases hf : f.forward <;> simp [CBox.mv, CBox.toBeginning, COut.mv, List.map_take, hf] <;> exact ⟨by ring_nf; rfl, rfl⟩

def stepMv (e : σ → σ) (m : P → P) (dx dy : Rat) (r : CAct × List (CBox σ) × COut P B C) : CAct × List (CBox σ) × COut P B C :=
  (r.1, r.2.1.map (CBox.mv e dx dy), r.2.2.mv m dx dy)

theorem breakAct_mv (f : CBox σ) (anc : List (CBox σ)) (w : COut P B C) :
    breakAct (f.mv e dx dy) (anc.map (CBox.mv e dx dy)) (w.mv m dx dy) = stepMv e m dx dy (breakAct f anc w) := by
  unfold breakAct
  by_cases h : f.willReset = true ∨ f.resetting = true
  · rw [if_pos h, if_pos (show (f.mv e dx dy).willReset = true ∨ (f.mv e dx dy).resetting = true from h), reset_mv]; rfl
  · rw [if_neg h, if_neg (show ¬ ((f.mv e dx dy).willReset = true ∨ (f.mv e dx dy).resetting = true) from h)]; rfl

theorem mvLength (w : COut P B C) : (w.mv m dx dy).parts.length = w.parts.length := by simp [COut.mv]

theorem answerAct_mv (a : CAct) (stk : List (CBox σ)) (w : COut P B C) :
    answerAct a (stk.map (CBox.mv e dx dy)) (w.mv m dx dy) = stepMv e m dx dy (answerAct a stk w) := by
  cases stk with
  | nil => rfl
  | cons f anc =>
    cases a with
    | partialNext =>
      simp only [answerAct, List.map, stepMv, CBox.mv]
      cases f.partialMemory <;> rfl
    | brk => exact breakAct_mv f anc w
    | next =>
      have h : nextSection w.parts.length none (f.mv e dx dy :: anc.map (CBox.mv e dx dy)) = _ := nextSection_mv w.parts.length (f :: anc) none
      simp only [answerAct, List.map, mvLength]
      rw [h]
      rcases nextSection w.parts.length none (f :: anc) with ⟨r, stk⟩
      cases r with
      | brk => cases stk with
        | nil => rfl
        | cons f anc => exact breakAct_mv f anc w
      | _ => rfl
    | _ => rfl

theorem lastOfResetting_mv (stk : List (CBox σ)) : lastOfResetting (stk.map (CBox.mv e dx dy)) = lastOfResetting stk := by
  induction stk with
  | nil => rfl
  | cons f anc ih => cases anc with
    | nil => rfl
    | cons p anc => simp only [List.map, lastOfResetting] at ih ⊢; rw [ih]; rfl

theorem startResetting_mv (stk : List (CBox σ)) : startResetting (stk.map (CBox.mv e dx dy)) = (startResetting stk).map (CBox.mv e dx dy) := by
  induction stk with
  | nil => rfl
  | cons f anc ih => cases anc with
    | nil => rfl
    | cons p anc =>
      simp only [List.map, startResetting] at ih ⊢
      by_cases h : f.last = true ∧ p.cols > 1
      · rw [if_pos h, if_pos (show (f.mv e dx dy).last = true ∧ (p.mv e dx dy).cols > 1 from h), ih]; rfl
      · rw [if_neg h, if_neg (show ¬ ((f.mv e dx dy).last = true ∧ (p.mv e dx dy).cols > 1) from h)]; rfl

theorem setupHere_mv (f : CBox σ) (cols : Nat) (gap : Option Rat) (els : List (CEl σ)) (last : Bool) (n : Nat) :
    (CBox.blank cols gap (els.map (CEl.mp e)) last).setup (f.mv e dx dy).colX (f.mv e dx dy).colWidth (f.mv e dx dy).y (f.mv e dx dy).maxY n
      = ((CBox.blank cols gap els last).setup f.colX f.colWidth f.y f.maxY n).mv e dx dy := by
  rw [blank_mp, colX_mv, ← setup_mv e dx dy _ 0 0]; rfl

theorem newChild_mv (f : CBox σ) (cols : Nat) (gap : Option Rat) (els : List (CEl σ)) (st : CStyle) (last : Bool) (n : Nat) :
    (f.mv e dx dy).newChild cols gap (els.map (CEl.mp e)) st last n
      = ((f.newChild cols gap els st last n).1.mv e dx dy, (f.newChild cols gap els st last n).2.mv e dx dy) := by
  unfold CBox.newChild
  simp only [descend_mv, setupHere_mv]
  generalize f.descend st true = f
  rw [show (f.mv e dx dy).index = f.index from rfl, show (f.mv e dx dy).sectionIndex = f.sectionIndex from rfl,
    show (f.mv e dx dy).childrenMemory = f.childrenMemory.map (CMem.mp e) from rfl, show (f.mv e dx dy).partialMemory = f.partialMemory.map (List.map (CMem.mp e)) from rfl]
  have h1 : (if f.index = f.sectionIndex then (f.childrenMemory.map (CMem.mp e)).getLast? else none)
      = (if f.index = f.sectionIndex then f.childrenMemory.getLast? else none).map (CMem.mp e) := by
    split_ifs
    · simp
    · rfl
  rw [h1]
  cases (if f.index = f.sectionIndex then f.childrenMemory.getLast? else none) with
  | some c => simp [CBox.mv, CMem.mp]
  | none =>
    have h2 : (f.partialMemory.map (List.map (CMem.mp e))).bind (·.getLast?) = (f.partialMemory.bind (·.getLast?)).map (CMem.mp e) := by
      cases f.partialMemory <;> simp
    simp only [Option.map_none, h2]
    cases f.partialMemory.bind (·.getLast?) with
    | none => rfl
    | some c => cases hp : f.partialMemory <;> simp [CBox.mv, CMem.mp]

theorem childTook_mv (f c : CBox σ) (y0 : Rat) (st : CStyle) : (f.mv e dx dy).childTook (c.mv e dx dy) (y0 + dy) st = (f.childTook c y0 st).mv e dx dy := by
  unfold CBox.childTook
  rw [took_mv]
  congr 2
  by_cases h : c.cols > 1
  · rw [if_pos h, if_pos (show (c.mv e dx dy).cols > 1 from h)]; simp only [CBox.mv]; ring
  · rw [if_neg h, if_neg (show ¬ (c.mv e dx dy).cols > 1 from h)]; simp only [CBox.mv]; ring

/-- the loops of a box and its ancestors -/
theorem contentRun_mv (hE : Shifts exec exec' e m dx dy) (fuel : Nat) :
    (∀ (stk : List (CBox σ)) (w : COut P B C), contentRun exec' fuel (stk.map (CBox.mv e dx dy)) (w.mv m dx dy) = (contentRun exec fuel stk w).map (stepMv e m dx dy)) ∧
    ∀ (stk : List (CBox σ)) (w : COut P B C), contentElements exec' fuel (stk.map (CBox.mv e dx dy)) (w.mv m dx dy) = (contentElements exec fuel stk w).map (stepMv e m dx dy) := by
  induction fuel with
  | zero => exact ⟨fun stk w => by cases stk <;> rfl, fun stk w => by cases stk <;> rfl⟩
  | succ fuel ih =>
    obtain ⟨ih1, ih2⟩ := ih
    constructor
    · intro stk w
      cases stk with
      | nil => rfl
      | cons f anc =>
        simp only [List.map, contentRun, addDelayed_mv hE]
        cases f.addDelayed exec fuel 0 w with
        | error x => rfl
        | ok r =>
          obtain ⟨a, f1, w1⟩ := r
          simp only [Except.map]
          rw [show f1.mv e dx dy :: anc.map (CBox.mv e dx dy) = (f1 :: anc).map (CBox.mv e dx dy) from rfl, answerAct_mv]
          rcases answerAct a (f1 :: anc) w1 with ⟨a2, stk2, w2⟩
          have main : ∀ (stk2 : List (CBox σ)) (w2 : COut P B C), (match contentElements exec' fuel (stk2.map (CBox.mv e dx dy)) (w2.mv m dx dy) with
              | .error e => (.error e : CRun (CAct × List (CBox σ) × COut P B C))
              | .ok (a, stk, w) => match answerAct a stk w with
                | (.retry, stk, w) => contentRun exec' fuel stk w
                | (.interrupt, stk, w) => .ok (.interrupt, stk, w)
                | (.brk, stk, w) => .ok (.brk, stk, w)
                | (.partialNext, stk, w) => .ok (.partialNext, stk, w)
                | (_, [], w) => .ok (.cont, [], w)
                | (_, f :: anc, w) =>
                  if f.delayed ≠ [] then contentRun exec' fuel (f :: anc) w
                  else if ¬ f.resetting ∧ f.cols > 1 then
                    if lastOfResetting (f :: anc) then .ok (.cont, f :: anc, w)
                    else match startResetting (f :: anc) with
                      | [] => .ok (.brk, [], w)
                      | f :: anc =>
                        if f.willReset then
                          let r := f.reset w
                          contentRun exec' fuel (r.2.1 :: anc) r.2.2
                        else .ok (.brk, f :: anc, w)
                  else if f.resetting then
                    let r := CBox.reset { f with forward := false } w
                    if r.1 then contentRun exec' fuel (r.2.1 :: anc) r.2.2 else .ok (.cont, r.2.1 :: anc, r.2.2)
                  else .ok (.cont, f :: anc, w)) =
              (match contentElements exec fuel stk2 w2 with
              | .error e => (.error e : CRun (CAct × List (CBox σ) × COut P B C))
              | .ok (a, stk, w) => match answerAct a stk w with
                | (.retry, stk, w) => contentRun exec fuel stk w
                | (.interrupt, stk, w) => .ok (.interrupt, stk, w)
                | (.brk, stk, w) => .ok (.brk, stk, w)
                | (.partialNext, stk, w) => .ok (.partialNext, stk, w)
                | (_, [], w) => .ok (.cont, [], w)
                | (_, f :: anc, w) =>
                  if f.delayed ≠ [] then contentRun exec fuel (f :: anc) w
                  else if ¬ f.resetting ∧ f.cols > 1 then
                    if lastOfResetting (f :: anc) then .ok (.cont, f :: anc, w)
                    else match startResetting (f :: anc) with
                      | [] => .ok (.brk, [], w)
                      | f :: anc =>
                        if f.willReset then
                          let r := f.reset w
                          contentRun exec fuel (r.2.1 :: anc) r.2.2
                        else .ok (.brk, f :: anc, w)
                  else if f.resetting then
                    let r := CBox.reset { f with forward := false } w
                    if r.1 then contentRun exec fuel (r.2.1 :: anc) r.2.2 else .ok (.cont, r.2.1 :: anc, r.2.2)
                  else .ok (.cont, f :: anc, w)).map (stepMv e m dx dy) := by
            intro stk2 w2
            rw [ih2]
            cases contentElements exec fuel stk2 w2 with
            | error x => rfl
            | ok r =>
              obtain ⟨a3, stk3, w3⟩ := r
              simp only [Except.map]
              rw [show answerAct (stepMv e m dx dy (a3, stk3, w3)).1 (stepMv e m dx dy (a3, stk3, w3)).2.1 (stepMv e m dx dy (a3, stk3, w3)).2.2
                = stepMv e m dx dy (answerAct a3 stk3 w3) from answerAct_mv a3 stk3 w3]
              rcases answerAct a3 stk3 w3 with ⟨a4, stk4, w4⟩
              have last : (match stk4.map (CBox.mv e dx dy), w4.mv m dx dy with
                  | [], w => (.ok (.cont, [], w) : CRun (CAct × List (CBox σ) × COut P B C))
                  | f :: anc, w =>
                    if f.delayed ≠ [] then contentRun exec' fuel (f :: anc) w
                    else if ¬ f.resetting ∧ f.cols > 1 then
                      if lastOfResetting (f :: anc) then .ok (.cont, f :: anc, w)
                      else match startResetting (f :: anc) with
                        | [] => .ok (.brk, [], w)
                        | f :: anc =>
                          if f.willReset then
                            let r := f.reset w
                            contentRun exec' fuel (r.2.1 :: anc) r.2.2
                          else .ok (.brk, f :: anc, w)
                    else if f.resetting then
                      let r := CBox.reset { f with forward := false } w
                      if r.1 then contentRun exec' fuel (r.2.1 :: anc) r.2.2 else .ok (.cont, r.2.1 :: anc, r.2.2)
                    else .ok (.cont, f :: anc, w)) =
                  (match stk4, w4 with
                  | [], w => (.ok (.cont, [], w) : CRun (CAct × List (CBox σ) × COut P B C))
                  | f :: anc, w =>
                    if f.delayed ≠ [] then contentRun exec fuel (f :: anc) w
                    else if ¬ f.resetting ∧ f.cols > 1 then
                      if lastOfResetting (f :: anc) then .ok (.cont, f :: anc, w)
                      else match startResetting (f :: anc) with
                        | [] => .ok (.brk, [], w)
                        | f :: anc =>
                          if f.willReset then
                            let r := f.reset w
                            contentRun exec fuel (r.2.1 :: anc) r.2.2
                          else .ok (.brk, f :: anc, w)
                    else if f.resetting then
                      let r := CBox.reset { f with forward := false } w
                      if r.1 then contentRun exec fuel (r.2.1 :: anc) r.2.2 else .ok (.cont, r.2.1 :: anc, r.2.2)
                    else .ok (.cont, f :: anc, w)).map (stepMv e m dx dy) := by
                cases stk4 with
                | nil => rfl
                | cons f anc =>
                  have hc := lastOfResetting_mv (e := e) (dx := dx) (dy := dy) (f :: anc)
                  have hs := startResetting_mv (e := e) (dx := dx) (dy := dy) (f :: anc)
                  have hr := reset_mv (e := e) (m := m) (dx := dx) (dy := dy) { f with forward := false } w4
                  simp only [List.map] at hc hs ⊢
                  rw [hc, hs]
                  rw [show ({ f.mv e dx dy with forward := false } : CBox σ) = ({ f with forward := false } : CBox σ).mv e dx dy from rfl, hr]
                  rw [show (f.mv e dx dy).delayed = f.delayed.map (CEl.mp e) from rfl, show (f.mv e dx dy).resetting = f.resetting from rfl, show (f.mv e dx dy).cols = f.cols from rfl]
                  by_cases h1 : f.delayed = []
                  · simp only [h1, List.map, ne_eq, not_true, if_false]
                    by_cases h2 : ¬ f.resetting = true ∧ f.cols > 1
                    · simp only [if_pos h2]
                      by_cases h3 : lastOfResetting (f :: anc) = true
                      · simp only [if_pos h3]; rfl
                      · simp only [if_neg h3]
                        cases startResetting (f :: anc) with
                        | nil => rfl
                        | cons g anc' =>
                          simp only [List.map]
                          rw [show (g.mv e dx dy).willReset = g.willReset from rfl]
                          by_cases h4 : g.willReset = true
                          · simp only [if_pos h4, reset_mv]
                            exact ih1 (_ :: anc') _
                          · simp only [if_neg h4]; rfl
                    · simp only [if_neg h2]
                      by_cases h5 : f.resetting = true
                      · simp only [if_pos h5]
                        rcases CBox.reset { f with delayed := [], forward := false } w4 with ⟨b, f5, w5⟩
                        cases b with
                        | false => rfl
                        | true => exact ih1 (f5 :: anc) w5
                      · simp only [if_neg h5]; rfl
                  · have h1' : f.delayed.map (CEl.mp e) ≠ [] := by simpa using h1
                    simp only [if_pos h1', if_pos h1]
                    exact ih1 (f :: anc) w4
              cases a4 with
              | retry => exact ih1 stk4 w4
              | interrupt => rfl
              | brk => rfl
              | partialNext => rfl
              | next => cases stk4 <;> exact last
              | cont => cases stk4 <;> exact last
          cases a2 with
          | retry => exact ih1 stk2 w2
          | interrupt => rfl
          | brk => rfl
          | partialNext => rfl
          | next => exact main stk2 w2
          | cont => exact main stk2 w2
    · intro stk w
      cases stk with
      | nil => rfl
      | cons f anc =>
        simp only [List.map, contentElements]
        rw [show (f.mv e dx dy).elements = f.elements.map (CEl.mp e) from rfl, show (f.mv e dx dy).index = f.index from rfl, List.getElem?_map]
        cases hel : f.elements[f.index]? with
        | none => rfl
        | some a =>
          have plain : (match (f.mv e dx dy).process exec' (w.mv m dx dy) (a.mp e) with
              | .error e => (.error (some e) : CRun (CAct × List (CBox σ) × COut P B C))
              | .ok (a, e', f, w) =>
                let f := { f with
                  elements := f.elements.set f.index e'
                  index := f.index + 1
                  delayed := f.delayed ++ a.delayed.toList }
                if a.next then .ok (.next, f :: anc.map (CBox.mv e dx dy), w) else contentElements exec' fuel (f :: anc.map (CBox.mv e dx dy)) w) =
              (match f.process exec w a with
              | .error e => (.error (some e) : CRun (CAct × List (CBox σ) × COut P B C))
              | .ok (a, e, f, w) =>
                let f := { f with
                  elements := f.elements.set f.index e
                  index := f.index + 1
                  delayed := f.delayed ++ a.delayed.toList }
                if a.next then .ok (.next, f :: anc, w) else contentElements exec fuel (f :: anc) w).map (stepMv e m dx dy) := by
            rw [process_mv hE]
            cases f.process exec w a with
            | error x => rfl
            | ok r =>
              obtain ⟨a', b', f', w'⟩ := r
              simp only [Except.map]
              have hf : ({ f'.mv e dx dy with
                  elements := (f'.mv e dx dy).elements.set (f'.mv e dx dy).index (b'.mp e)
                  index := (f'.mv e dx dy).index + 1
                  delayed := (f'.mv e dx dy).delayed ++ (a'.mp e).delayed.toList } : CBox σ) =
                ({ f' with
                  elements := f'.elements.set f'.index b'
                  index := f'.index + 1
                  delayed := f'.delayed ++ a'.delayed.toList } : CBox σ).mv e dx dy := by
                simp only [CBox.mv, CAns.mp, List.map_set, List.map_append]
                cases a'.delayed <;> rfl
              rw [hf]
              by_cases hn : a'.next = true
              · rw [if_pos hn, if_pos (show (a'.mp e).next = true from hn)]; rfl
              · rw [if_neg hn, if_neg (show ¬ (a'.mp e).next = true from hn)]
                exact ih2 (_ :: anc) w'
          cases a with
          | child cols gap els st =>
            simp only [Option.map, CEl.mp, CEl.mps_eq]
            by_cases hc : cols = 0
            · simp only [if_pos hc]; rfl
            · simp only [if_neg hc, newChild_mv, mvLength, List.length_map]
              have hi := ih1 ((f.newChild cols gap els st (decide (f.index + 1 = f.elements.length)) w.parts.length).2 ::
                (f.newChild cols gap els st (decide (f.index + 1 = f.elements.length)) w.parts.length).1 :: anc) w
              simp only [List.map] at hi
              rw [hi]
              cases contentRun exec fuel ((f.newChild cols gap els st (decide (f.index + 1 = f.elements.length)) w.parts.length).2 ::
                (f.newChild cols gap els st (decide (f.index + 1 = f.elements.length)) w.parts.length).1 :: anc) w with
              | error x => rfl
              | ok r =>
                obtain ⟨a', stk', w'⟩ := r
                match stk' with
                | [] => rfl
                | [c] => rfl
                | c :: f2 :: anc' =>
                  simp only [Except.map, stepMv, List.map]
                  have hset : ({ f2.mv e dx dy with elements := (f2.mv e dx dy).elements.set (f2.mv e dx dy).index (.child cols gap (c.mv e dx dy).elements st) } : CBox σ)
                      = ({ f2 with elements := f2.elements.set f2.index (.child cols gap c.elements st) } : CBox σ).mv e dx dy := by
                    simp only [CBox.mv, List.map_set, CEl.mp, CEl.mps_eq]
                  have hsel : (if a' = CAct.partialNext then ({ f2 with elements := f2.elements.set f2.index (.child cols gap c.elements st) } : CBox σ).mv e dx dy
                        else (({ f2 with elements := f2.elements.set f2.index (.child cols gap c.elements st) } : CBox σ).mv e dx dy).childTook (c.mv e dx dy) (f.mv e dx dy).y st)
                      = (if a' = CAct.partialNext then ({ f2 with elements := f2.elements.set f2.index (.child cols gap c.elements st) } : CBox σ)
                        else ({ f2 with elements := f2.elements.set f2.index (.child cols gap c.elements st) } : CBox σ).childTook c f.y st).mv e dx dy := by
                    rw [show (f.mv e dx dy).y = f.y + dy from rfl, childTook_mv]
                    split_ifs <;> rfl
                  rw [hset, hsel]
                  generalize (if a' = CAct.partialNext then ({ f2 with elements := f2.elements.set f2.index (.child cols gap c.elements st) } : CBox σ)
                        else ({ f2 with elements := f2.elements.set f2.index (.child cols gap c.elements st) } : CBox σ).childTook c f.y st) = g
                  by_cases ha : a' = .interrupt ∨ a' = .brk ∨ a' = .partialNext
                  · simp only [if_pos ha]; rfl
                  · simp only [if_neg ha]
                    exact ih2 ({ g with starting := false, index := g.index + 1 } :: anc') w'
          | leaf c st => exact plain
          | image i => exact plain
          | group l n st => exact plain

end

end Verif
