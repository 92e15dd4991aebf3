import Verif.Spec.Nest
import Verif.Lemmas.ContentZero
import Verif.Lemmas.TableZero
import Verif.Lemmas.TableCong
import Verif.Props.C62_CellText
import Verif.Props.C35_C37_Content
/-! Tables and boxes inside each other: what runs of them show. -/
namespace Verif
open Spec

/-! ### lists in which one place has everything -/

theorem single_list {α Y : Type} {k : Nat} (l : List α) (f : α → List Y) (T : α → List Nat) (hn : (l.flatMap T).Nodup) (hk : ∀ a ∈ l, f a ≠ [] → k ∈ T a) :
    ∃ i0 : Nat, (∀ i, i ≠ i0 → ∀ a, l[i]? = some a → f a = []) ∧ l.flatMap f = ((l[i0]?).map f).getD [] := by
  induction l with
  | nil => exact ⟨0, by simp, rfl⟩
  | cons a l ih =>
    rw [List.flatMap_cons, List.nodup_append] at hn
    obtain ⟨-, n2, n3⟩ := hn
    by_cases ha : f a = []
    · obtain ⟨i0, h1, h2⟩ := ih n2 (fun b hb => hk b (List.mem_cons_of_mem _ hb))
      refine ⟨i0 + 1, fun i hi b hb => ?_, by simp [ha, h2]⟩
      rcases i with _ | i
      · cases hb; exact ha
      · exact h1 i (by omega) b (by simpa using hb)
    · have hka := hk a (by simp) ha
      have hl : ∀ b ∈ l, f b = [] := by
        intro b hb
        by_contra hne
        exact n3 k hka k (List.mem_flatMap.2 ⟨b, hb, hk b (List.mem_cons_of_mem _ hb) hne⟩) rfl
      refine ⟨0, fun i hi b hb => ?_, ?_⟩
      · rcases i with _ | i
        · exact absurd rfl hi
        · exact hl b (List.mem_of_getElem? (by simpa using hb))
      · have : l.flatMap f = [] := List.flatMap_eq_nil_iff.2 hl
        simp [this]

/-- the atoms with a label, when only one label has any -/
theorem labels_single {L X Y : Type} [DecidableEq L] (t : List (L × X)) (g : X → List Y) (G : L → List Y) (p0 : L)
    (hp : ∀ p, ((t.filter (·.1 = p)).map Prod.snd).flatMap g <+: G p) (hne : ∀ p, p ≠ p0 → G p = []) :
    (t.map Prod.snd).flatMap g = ((t.filter (·.1 = p0)).map Prod.snd).flatMap g := by
  have h0 : ∀ e ∈ t, e.1 ≠ p0 → g e.2 = [] := by
    intro e he hne'
    have h1 := hp e.1
    rw [hne e.1 hne', List.prefix_nil, List.flatMap_eq_nil_iff] at h1
    exact h1 e.2 (List.mem_map_of_mem (List.mem_filter.2 ⟨he, by simp⟩))
  clear hp
  induction t with
  | nil => rfl
  | cons e t ih =>
    have h2 := ih (fun e he => h0 e (List.mem_cons_of_mem _ he))
    by_cases he : e.1 = p0
    · simp [he, h2]
    · simp [he, h2, h0 e (by simp) he]

theorem flatMap_prefix {X Y : Type} {a b : List X} (g : X → List Y) (h : a <+: b) : a.flatMap g <+: b.flatMap g := by
  obtain ⟨c, rfl⟩ := h
  exact ⟨c.flatMap g, by simp⟩

theorem drop_next {X : Type} {t a b : List X} (h : a ++ b <+: t) : b ++ t.drop (a ++ b).length = t.drop a.length := by
  obtain ⟨c, rfl⟩ := h
  rw [List.drop_left, List.append_assoc, List.drop_left]

/-! ### contents of some depth -/

variable {Λ Q σ B C : Type}

open Classical in
/-- `exec` where it can be trusted -/
noncomputable def guard (S : NSpec σ) (exec : σ → Rat → Rat → Rat → Rat → Except PyErr (CellOut σ (TagPart Q) B C)) (c : σ) (x y w h : Rat) :
    Except PyErr (CellOut σ (TagPart Q) B C) :=
  if S.fit c w then exec c x y w h else .error .exception

/-- the contents show what they hold -/
structure NGood (pa : Q → List LAtom) (S : NSpec σ) (exec : σ → Rat → Rat → Rat → Rat → Except PyErr (CellOut σ (TagPart Q) B C)) : Prop where
  rest : ∃ rest : Nat → σ → List (CAtom LAtom), (∀ k, Honest (guard S exec) (natoms pa k) (rest k)) ∧ ∀ k c, S.fresh c → rest k c = S.total k c
  next : ∀ c x y w h o w', S.fit c w → exec c x y w h = .ok o → S.fit c w' → S.fit o.next w'
  void : ∀ c, S.void c → (∀ w, S.fit c w) ∧ S.fresh c ∧ ∀ k, S.total k c = []
  tags : ∀ k c, S.total k c ≠ [] → k ∈ S.tags c

/-- `leaf` where it can be trusted -/
noncomputable def lguard (K : LSpec Λ) (leaf : Λ → Rat → Rat → Rat → Rat → Except PyErr (CellOut Λ Q B C)) (l : Λ) (x y w h : Rat) :
    Except PyErr (CellOut Λ Q B C) :=
  open Classical in if K.fit l w then leaf l x y w h else .error .exception

/-- paragraphs and images show what they hold -/
structure LGood (pa : Q → List LAtom) (K : LSpec Λ) (leaf : Λ → Rat → Rat → Rat → Rat → Except PyErr (CellOut Λ Q B C)) : Prop where
  rest : ∃ rest : Λ → List LAtom, Honest (lguard K leaf) pa rest ∧ ∀ l, K.fresh l → rest l = K.atoms l
  next : ∀ l x y w h o w', leaf l x y w h = .ok o → K.fit l w' → K.fit o.next w'
  void : ∀ l, K.void l → (∀ w, K.fit l w) ∧ K.fresh l ∧ K.atoms l = []

theorem lguard_eq {K : LSpec Λ} {leaf : Λ → Rat → Rat → Rat → Rat → Except PyErr (CellOut Λ Q B C)} {l : Λ} {w : Rat} (h : K.fit l w) (x y ht : Rat) :
    lguard K leaf l x y w ht = leaf l x y w ht := by
  unfold lguard
  rw [if_pos h]

/-- the paragraphs and images of Model/Cells -/
theorem leaf_good (M : Metrics) : LGood (B := B) (C := C) leafPartAtoms leafSpec (leafExec M) where
  rest := by
    have e : (lguard leafSpec (leafExec M) : _ → _ → _ → _ → _ → Except PyErr (CellOut Leaf LeafPart B C)) = leafSafe M := by
      funext l x y w h
      unfold lguard leafSafe
      by_cases hf : LeafOk l w
      · rw [if_pos hf, if_pos (show leafSpec.fit l w from hf)]
      · rw [if_neg hf, if_neg (show ¬ leafSpec.fit l w from hf)]
    exact ⟨leafRest M, e ▸ leafSafe_honest M, fun l hl => leafRest_fresh M hl⟩
  next := fun l x y w h o w' ho hf => leafExec_next ho hf
  void := by
    intro l hl
    cases l with
    | par cfg rs =>
      obtain ⟨h1, h2, h3⟩ := hl
      exact ⟨fun w => h2, h1, by simp [leafSpec, leafAtoms, h3, wordsOf, wordState, wordStep]⟩
    | image im b => exact hl.elim

variable {pa : Q → List LAtom} {K : LSpec Λ} {leaf : Λ → Rat → Rat → Rat → Rat → Except PyErr (CellOut Λ Q B C)} {S : NSpec σ} {exec : σ → Rat → Rat → Rat → Rat → Except PyErr (CellOut σ (TagPart Q) B C)}

theorem guard_ok {c : σ} {x y w h : Rat} {o : CellOut σ (TagPart Q) B C} (ho : guard S exec c x y w h = .ok o) : S.fit c w ∧ exec c x y w h = .ok o := by
  unfold guard at ho
  split at ho
  · exact ⟨by assumption, ho⟩
  · cases ho

theorem guard_same (G : NGood pa S exec) : SameWhere S.fit exec (guard S exec) where
  same := by
    intro c x y w h hk
    unfold guard
    rw [if_pos hk]
  next := by
    intro c x y w h o w' ho hk
    obtain ⟨h1, h2⟩ := guard_ok ho
    exact G.next _ _ _ _ _ _ _ h1 h2 hk

/-! ### tables -/

section
variable [DecidableEq B]

theorem table_same (G : NGood pa S exec) {D : TabData σ B C} {Ws : List Rat} (hD : TableFit S D Ws) {rects : List (Rat × Rat × Rat × Rat)}
    (hW : ∀ r ∈ rects, r.2.2.1 ∈ Ws) :
    (TS.new 0 0 0 0).runs (D.conf (guard S exec)) rects = (TS.new 0 0 0 0).runs (D.conf exec) rects ∧
    ∀ ps s, (TS.new 0 0 0 0).runs (D.conf exec) rects = .ok (ps, s) → ∀ x y w h, w ∈ Ws → s.run (D.conf (guard S exec)) x y w h = s.run (D.conf exec) x y w h := by
  have hb : ∀ j, ∀ W ∈ Ws, ∀ i : Nat, S.fit (D.conf exec).blank (boxWidth (D.conf exec) W i j 0 (D.conf exec).style) := fun _ _ _ _ => (G.void _ hD.blank).1 _
  have hl : RowsFine (D.conf exec) S.fit Ws := fun i j c hc x hx W hW i' => hD.fits i j c x hc hx W hW i'
  obtain ⟨h1, h2⟩ := runs_cong (T := D.conf exec) (guard_same G) hb hl rects hW (LateFine.new 0 0 0 0)
  exact ⟨h1, fun ps s hs x y w h hw => (run_cong (T := D.conf exec) (guard_same G) hb hl hw (h2 ps s hs)).1⟩

omit [DecidableEq B] in
/-- only one position of a table has something of a tag -/
theorem table_place {D : TabData σ B C} (ht : ∀ k c, S.total k c ≠ [] → k ∈ S.tags c) (hn : (S.tableTags D.content).Nodup) (rects : List (Rat × Rat × Rat × Rat)) (k : Nat) :
    ∃ p0 : Nat × Nat, (∀ p : Nat × Nat, p ≠ p0 → cellAtoms (S.total k) D.content p.1 p.2 = []) ∧
      (S.node K B C).total k (.table D rects) = cellAtoms (S.total k) D.content p0.1 p0.2 := by
  have htag : ∀ c : Option (Cell σ C), restOf (S.total k) (c.bind (·.content)) ≠ [] → k ∈ restOf S.tags (c.bind (·.content)) := by
    intro c hc
    cases hx : c.bind (·.content) with
    | none => rw [hx] at hc; exact absurd rfl hc
    | some x => rw [hx] at hc; exact ht k x hc
  obtain ⟨i0, h1, h2⟩ := single_list (k := k) D.content (fun (row : List (Option (Cell σ C))) => row.flatMap fun (c : Option (Cell σ C)) => restOf (S.total k) (c.bind (·.content)))
    (fun (row : List (Option (Cell σ C))) => row.flatMap fun (c : Option (Cell σ C)) => restOf S.tags (c.bind (·.content))) hn (by
      intro row _ hne
      obtain ⟨x, hx⟩ := List.exists_mem_of_ne_nil _ hne
      obtain ⟨c, hc, hx⟩ := List.mem_flatMap.1 hx
      exact List.mem_flatMap.2 ⟨c, hc, htag c (List.ne_nil_of_mem hx)⟩)
  have hother : ∀ i j, i ≠ i0 → cellAtoms (S.total k) D.content i j = [] := by
    intro i j hi
    unfold cellAtoms cellAt
    cases hrow : D.content[i]? with
    | none => rfl
    | some row =>
      have h3 := h1 i hi row hrow
      rw [List.flatMap_eq_nil_iff] at h3
      rw [Option.bind_some]
      cases hc : row[j]? with
      | none => rfl
      | some c =>
        rw [Option.join_some]
        exact h3 c (List.mem_of_getElem? hc)
  cases hrow : D.content[i0]? with
  | none =>
    refine ⟨(i0, 0), fun p hp => ?_, ?_⟩
    · by_cases hi : p.1 = i0
      · unfold cellAtoms cellAt
        rw [hi, hrow]
        rfl
      · exact hother _ _ hi
    · rw [hrow] at h2
      refine Eq.trans h2 ?_
      unfold cellAtoms cellAt
      rw [hrow]
      rfl
  | some row =>
    rw [hrow] at h2
    have hsub : (row.flatMap fun c => restOf S.tags (c.bind (·.content))).Nodup := (List.nodup_flatMap.1 hn).1 row (List.mem_of_getElem? hrow)
    obtain ⟨j0, h3, h4⟩ := single_list (k := k) row (fun c => restOf (S.total k) (c.bind (·.content))) (fun c => restOf S.tags (c.bind (·.content))) hsub
      (fun c _ hc => htag c hc)
    refine ⟨(i0, j0), fun p hp => ?_, ?_⟩
    · by_cases hi : p.1 = i0
      · have hj : p.2 ≠ j0 := by
          intro hj
          exact hp (Prod.ext hi hj)
        unfold cellAtoms cellAt
        rw [hi, hrow, Option.bind_some]
        cases hc : row[p.2]? with
        | none => rfl
        | some c =>
          rw [Option.join_some]
          exact h3 p.2 hj c hc
      · exact hother _ _ hi
    · refine Eq.trans h2 (Eq.trans h4 ?_)
      unfold cellAtoms cellAt
      rw [hrow, Option.bind_some]
      cases hc : row[j0]? with
      | none => rfl
      | some c => rw [Option.join_some]; rfl

/-- what a table shows of a tag is the beginning of what it holds -/
theorem table_shows (G : NGood pa S exec) {D : TabData σ B C} {Ws : List Rat} (hD : TableFit S D Ws) {rects : List (Rat × Rat × Rat × Rat)}
    (hW : ∀ r ∈ rects, r.2.2.1 ∈ Ws) {ps : List (TagPart Q)} {s : TS σ (TagPart Q) B C} (hr : (TS.new 0 0 0 0).runs (D.conf exec) rects = .ok (ps, s)) (k : Nat) :
    ps.flatMap (natoms pa k) <+: (S.node K B C).total k (.table D rects) ∧
    (s.finished = true → ps.flatMap (natoms pa k) = (S.node K B C).total k (.table D rects)) := by
  obtain ⟨rest, H, hfresh⟩ := G.rest
  obtain ⟨v1, v2, v3⟩ := G.void _ hD.blank
  rw [← (table_same G hD hW).1] at hr
  obtain ⟨t, a1, a2, a3, -⟩ := C33_cells_partial (D.conf (guard S exec)) (natoms pa k) (rest k) (H k) (show rest k D.blank = [] by rw [hfresh k _ v2, v3]) hD.spans
    ⟨hD.border, hD.style, hD.cells⟩ hD.cols (fun j c hc => hD.rows 0 j c hc) 0 0 0 0 rects ps s hr
  -- what belongs to a position
  have hcell : ∀ i j, cellAtoms (rest k) D.content i j = cellAtoms (S.total k) D.content i j := by
    intro i j
    unfold cellAtoms
    cases hc : cellAt D.content i j with
    | none => rfl
    | some c =>
      cases hx : c.content with
      | none => simp [hx, restOf]
      | some x => simp [hx, restOf, hfresh k x (hD.fresh i j c x hc hx)]
  have hcell' : ∀ i j, cellAtoms (rest k) (D.conf (guard S exec)).content i j = cellAtoms (S.total k) D.content i j := hcell
  simp only [hcell'] at a2 a3
  obtain ⟨p0, b1, b2⟩ := table_place (K := K) G.tags hD.tags rects k
  have flat1 : ∀ l : List (CAtom LAtom), l.flatMap (fun a => [a]) = l := by
    intro l
    induction l with
    | nil => rfl
    | cons a l ih => simp
  have key := labels_single t (fun a => [a]) (fun p => cellAtoms (S.total k) D.content p.1 p.2) p0 (fun p => by rw [flat1]; exact a2 p.1 p.2) b1
  rw [flat1, flat1, a1] at key
  rw [key, b2]
  exact ⟨a2 p0.1 p0.2, fun hf => a3 hf p0.1 p0.2⟩

/-- a run of a table that takes no height shows nothing -/
theorem table_zero (G : NGood pa S exec) {D : TabData σ B C} {Ws : List Rat} (hD : TableFit S D Ws) {rects : List (Rat × Rat × Rat × Rat)}
    (hW : ∀ r ∈ rects, r.2.2.1 ∈ Ws) {ps : List (TagPart Q)} {s s' : TS σ (TagPart Q) B C} (hr : (TS.new 0 0 0 0).runs (D.conf exec) rects = .ok (ps, s))
    {x y w h : Rat} (hw : w ∈ Ws) (hs : s.run (D.conf exec) x y w h = .ok s') (hh : s'.currentHeight ≤ 0) (k : Nat) : s'.parts.flatMap (natoms pa k) = [] := by
  obtain ⟨rest, H, -⟩ := G.rest
  obtain ⟨e1, e2⟩ := table_same G hD hW
  rw [← e2 ps s hr x y w h hw] at hs
  rw [← e1] at hr
  have hlow : LowRows (D.conf (guard S exec)) := by
    intro row hrow c hc
    obtain ⟨i, hi⟩ := List.mem_iff_getElem?.1 hrow
    obtain ⟨j, hj⟩ := List.mem_iff_getElem?.1 hc
    have hcell : cellAt D.content i j = some c := by
      unfold cellAt
      rw [show D.content[i]? = some row from hi, Option.bind_some, hj]
      rfl
    exact ⟨hD.rows i j c hcell, hD.cells i j c hcell⟩
  have hz := (H k).zero
  have hlate := runs_low (T := D.conf (guard S exec)) hz hD.border hD.style hlow rects (s := TS.new 0 0 0 0) (by intro c d hd; cases hd) hr
  exact (run_zero (T := D.conf (guard S exec)) hz hD.border hD.style hlow hlate hs).2 hh

end

/-! ### boxes -/

theorem colWidthOf_one (gap : Option Rat) (W : Rat) : colWidthOf 1 gap W = W := by
  unfold colWidthOf
  norm_num

theorem box_same (G : NGood pa S exec) {els : List (CEl σ)} {Ws : List Rat} (hb : BoxFit S els Ws) (fuel : Nat) (gap : Option Rat) {rects : List (Rat × Rat × Rat × Rat)}
    (hW : ∀ r ∈ rects, r.2.2.1 ∈ Ws) :
    (CContent.new 1 gap els).runs (guard S exec) fuel rects = (CContent.new 1 gap els).runs exec fuel rects := by
  have he : ElsFine S.fit Ws els := by
    intro e he
    have ht := hb.tidy e he
    cases e with
    | leaf c st => exact fun W hW => hb.fits c st he W hW
    | image i => trivial
    | group l t st => exact ht.elim
    | child => exact ht.elim
  exact (contentBox_runs_cong (guard_same G) rects (ContentFine.new 1 gap he) (fun r hr => by
    show colWidthOf 1 gap _ ∈ Ws
    rw [colWidthOf_one]
    exact hW r hr)).1

/-- the atoms of a part of a box -/
def boxJoin (k : Nat) : CAtom (CAtom LAtom) → List (CAtom LAtom)
  | .text a => [a]
  | .image n => if n = k then [.image n] else []

theorem join_atoms (k : Nat) (ps : List (CPart (TagPart Q))) : (ps.map CPart.join).flatMap (natoms pa k) = (ps.flatMap (boxAtoms (natoms pa k))).flatMap (boxJoin k) := by
  have h1 : ∀ l : List (CAtom LAtom), (l.map CAtom.text).flatMap (boxJoin k) = l := by
    intro l
    induction l with
    | nil => rfl
    | cons a l ih => simp [boxJoin, ih]
  induction ps with
  | nil => rfl
  | cons p ps ih =>
    rw [List.map_cons, List.flatMap_cons, List.flatMap_cons, List.flatMap_append, ih]
    congr 1
    cases p with
    | leaf p => rw [boxAtoms, h1]; rfl
    | image n x y w h => simp [boxAtoms, boxJoin, CPart.join, natoms]

theorem box_shows (G : NGood pa S exec) {els : List (CEl σ)} {Ws : List Rat} (hb : BoxFit S els Ws) {fuel : Nat} {gap : Option Rat} {rects : List (Rat × Rat × Rat × Rat)}
    (hW : ∀ r ∈ rects, r.2.2.1 ∈ Ws) {ps : List (CPart (TagPart Q))} {s : CContent σ (TagPart Q) B C} (hr : (CContent.new 1 gap els).runs exec fuel rects = .ok (ps, s)) (k : Nat) :
    (ps.map CPart.join).flatMap (natoms pa k) <+: els.flatMap (S.elTotal k) ∧
    (s.finished = true → (ps.map CPart.join).flatMap (natoms pa k) = els.flatMap (S.elTotal k)) := by
  obtain ⟨rest, H, hfresh⟩ := G.rest
  rw [← box_same G hb fuel gap hW] at hr
  obtain ⟨t, a1, -, a2, a3, -⟩ := C35_content_partial (guard S exec) (natoms pa k) (rest k) (H k) 1 gap els (fun e he => elTidy_flat (hb.tidy e he)) fuel rects ps s hr
  have htag : ∀ e ∈ els, S.elTotal k e ≠ [] → k ∈ S.elTags e := by
    intro e _ hne
    cases e with
    | leaf c st => exact G.tags k c hne
    | image i =>
      simp only [NSpec.elTotal] at hne
      split at hne
      · rename_i h; simp [NSpec.elTags, h]
      · exact absurd rfl hne
    | group l t st => exact absurd rfl hne
    | child => exact absurd rfl hne
  obtain ⟨i0, h1, h2⟩ := single_list (k := k) els (S.elTotal k) S.elTags hb.tags htag
  have h3 : ∀ l : List (CAtom LAtom), (l.map CAtom.text).flatMap (boxJoin k) = l := by
    intro l
    induction l with
    | nil => rfl
    | cons a l ih => simp [boxJoin, ih]
  have hat : ∀ i, (atomsAt (rest k) els i).flatMap (boxJoin k) = ((els[i]?).map (S.elTotal k)).getD [] := by
    intro i
    unfold atomsAt
    cases he : els[i]? with
    | none => rfl
    | some e =>
      have hm := List.mem_of_getElem? he
      simp only [Option.map_some, Option.getD_some]
      cases e with
      | leaf c st => rw [elAtoms, h3, hfresh k c (hb.fresh c st hm)]; rfl
      | image i => simp [elAtoms, boxJoin, NSpec.elTotal]
      | group l t st => rfl
      | child => rfl
  have hp : ∀ i, (ofElement t i).flatMap (boxJoin k) <+: ((els[i]?).map (S.elTotal k)).getD [] := by
    intro i
    rw [← hat i]
    exact flatMap_prefix _ (a2 i)
  have key := labels_single t (boxJoin k) (fun i => ((els[i]?).map (S.elTotal k)).getD []) i0 hp (by
    intro i hi
    cases he : els[i]? with
    | none => rfl
    | some e => exact h1 i hi e he)
  rw [a1, ← join_atoms] at key
  rw [key, h2]
  refine ⟨hp i0, fun hf => ?_⟩
  rw [← hat i0, ← a3 hf i0]
  rfl

theorem box_zero (G : NGood pa S exec) {els : List (CEl σ)} {Ws : List Rat} (hb : BoxFit S els Ws) {fuel : Nat} {gap : Option Rat} {rects : List (Rat × Rat × Rat × Rat)}
    (hW : ∀ r ∈ rects, r.2.2.1 ∈ Ws) {ps : List (CPart (TagPart Q))} {s s' : CContent σ (TagPart Q) B C} (hr : (CContent.new 1 gap els).runs exec fuel rects = .ok (ps, s))
    (hf : s.finished = false) {x y w h : Rat} (hw : w ∈ Ws) (hs : s.run exec fuel x y w h = .ok s') (hh : s'.currentHeight ≤ 0) (k : Nat) :
    (s'.out.parts.map CPart.join).flatMap (natoms pa k) = [] := by
  obtain ⟨rest, H, -⟩ := G.rest
  have e1 := box_same G hb fuel gap hW
  have e2 := box_same G hb fuel gap (rects := rects ++ [(x, y, w, h)]) (by
    intro r hr
    rcases List.mem_append.1 hr with hr | hr
    · exact hW r hr
    · simp only [List.mem_singleton] at hr
      subst hr
      exact hw)
  have hr' := e1.trans hr
  rw [contentBox_runs_snoc, contentBox_runs_snoc, hr, hr'] at e2
  simp only [hf, Bool.false_eq_true, if_false, hs] at e2
  have hs' : s.run (guard S exec) fuel x y w h = .ok s' := by
    cases h1 : s.run (guard S exec) fuel x y w h with
    | error e => rw [h1] at e2; cases e2
    | ok s2 =>
      rw [h1] at e2
      simp only [Except.ok.injEq, Prod.mk.injEq] at e2
      rw [e2.2]
  have hz := (H k).zero
  have htidy : ContentTidy Ws (CContent.new 1 gap els : CContent σ (TagPart Q) B C) := ⟨rfl, hb.tidy, fun f hf => by cases hf⟩
  have h1 := contentBox_runs_tidy hz rects htidy hW hr'
  have h2 := (contentBox_run_zero hz h1 hw hs').2 hh
  rw [join_atoms, h2]
  rfl

/-! ### one level more -/

theorem flat_ok {α : Type} {r : CRun α} {a : α} (h : r.flat = .ok a) : r = .ok a := by
  match r with
  | .ok a => cases h; rfl
  | .error (some e) => cases h
  | .error none => cases h

section
variable [DecidableEq B]

/-- the cases of `tableExec` -/
theorem tableExec_cases {D : TabData σ B C} {rects : List (Rat × Rat × Rat × Rat)} {x y w h : Rat} {o : CellOut (Node Λ σ B C) (TagPart Q) B C}
    (ho : tableExec exec D rects x y w h = .ok o) :
    ∃ ps s, (TS.new 0 0 0 0).runs (D.conf exec) rects = .ok (ps, s) ∧
      ((s.finished = true ∧ o = ⟨[], [], [], 0, true, .table D rects⟩) ∨
       ∃ s', s.run (D.conf exec) x y w h = .ok s' ∧ (TS.new 0 0 0 0).runs (D.conf exec) (rects ++ [(x, y, w, h)]) = .ok (ps ++ s'.parts, s') ∧
        o = ⟨s'.parts, s'.lines, s'.fills, s'.currentHeight, s'.finished, .table D (rects ++ [(x, y, w, h)])⟩) := by
  unfold tableExec at ho
  cases h1 : (TS.new 0 0 0 0).runs (D.conf exec) rects with
  | error e => rw [h1] at ho; cases ho
  | ok q =>
    obtain ⟨ps, s⟩ := q
    rw [h1] at ho
    simp only at ho
    refine ⟨ps, s, rfl, ?_⟩
    split at ho
    · rename_i hf
      cases ho
      exact Or.inl ⟨hf, rfl⟩
    · cases h2 : s.run (D.conf exec) x y w h with
      | error e => rw [h2] at ho; cases ho
      | ok s' =>
        rw [h2] at ho
        cases ho
        refine Or.inr ⟨s', rfl, ?_, rfl⟩
        rw [runs_snoc, h1]
        simp only [h2]

omit [DecidableEq B] in
theorem boxExec_cases {fuel : Nat} {gap : Option Rat} {els : List (CEl σ)} {rects : List (Rat × Rat × Rat × Rat)} {x y w h : Rat} {o : CellOut (Node Λ σ B C) (TagPart Q) B C}
    (ho : boxExec fuel exec gap els rects x y w h = .ok o) :
    ∃ ps s, (CContent.new 1 gap els).runs exec fuel rects = .ok (ps, s) ∧
      ((s.finished = true ∧ o = ⟨[], [], [], 0, true, .box gap els rects⟩) ∨
       ∃ s', s.finished = false ∧ s.run exec fuel x y w h = .ok s' ∧ (CContent.new 1 gap els).runs exec fuel (rects ++ [(x, y, w, h)]) = .ok (ps ++ s'.out.parts, s') ∧
        o = ⟨s'.out.parts.map CPart.join, s'.out.lines, s'.out.fills, s'.currentHeight, s'.finished, .box gap els (rects ++ [(x, y, w, h)])⟩) := by
  unfold boxExec at ho
  cases h1 : ((CContent.new 1 gap els).runs exec fuel rects).flat with
  | error e => rw [h1] at ho; cases ho
  | ok q =>
    obtain ⟨ps, s⟩ := q
    rw [h1] at ho
    simp only at ho
    have h1' := flat_ok h1
    refine ⟨ps, s, h1', ?_⟩
    split at ho
    · rename_i hf
      cases ho
      exact Or.inl ⟨hf, rfl⟩
    · rename_i hf
      cases h2 : (s.run exec fuel x y w h).flat with
      | error e => rw [h2] at ho; cases ho
      | ok s' =>
        rw [h2] at ho
        cases ho
        refine Or.inr ⟨s', by simpa using hf, flat_ok h2, ?_, rfl⟩
        rw [contentBox_runs_snoc, h1']
        simp only [flat_ok h2]
        rw [if_neg hf]

omit [DecidableEq B] in
theorem tagExec_ok {tag : Nat} {l : Λ} {x y w h : Rat} {o : CellOut (Node Λ σ B C) (TagPart Q) B C} (ho : tagExec leaf tag l x y w h = .ok o) :
    ∃ o' : CellOut Λ Q B C, leaf l x y w h = .ok o' ∧
      o = ⟨o'.parts.map fun p => .leaf (tag, p), o'.lines, o'.fills, o'.height, o'.finished, .leaf tag o'.next⟩ := by
  unfold tagExec at ho
  cases h1 : leaf l x y w h with
  | error e => rw [h1] at ho; cases ho
  | ok o' =>
    rw [h1] at ho
    cases ho
    exact ⟨o', rfl, rfl⟩

theorem tag_atoms (k tag : Nat) (ps : List Q) : (ps.map fun p => (CPart.leaf (tag, p) : TagPart Q)).flatMap (natoms pa k) =
    if tag = k then (ps.flatMap pa).map .text else [] := by
  induction ps with
  | nil => simp
  | cons p ps ih =>
    rw [List.map_cons, List.flatMap_cons, ih]
    by_cases h : tag = k <;> simp [natoms, h]

/-- what is left of a thing -/
def nodeRest (pa : Q → List LAtom) (K : LSpec Λ) (lrest : Λ → List LAtom) (S : NSpec σ) (fuel : Nat) (exec : σ → Rat → Rat → Rat → Rat → Except PyErr (CellOut σ (TagPart Q) B C)) (k : Nat) : Node Λ σ B C → List (CAtom LAtom)
  | .leaf t l => if t = k then (lrest l).map .text else []
  | .table D rects => match (TS.new 0 0 0 0).runs (D.conf exec) rects with
    | .error _ => []
    | .ok (ps, _) => ((S.node K B C).total k (.table D rects)).drop (ps.flatMap (natoms pa k)).length
  | .box gap els rects => match (CContent.new 1 gap els).runs exec fuel rects with
    | .error _ => []
    | .ok (ps, _) => (els.flatMap (S.elTotal k)).drop ((ps.map CPart.join).flatMap (natoms pa k)).length

theorem mem_widths {rects : List (Rat × Rat × Rat × Rat)} {x y w h : Rat} : ∀ r ∈ rects ++ [(x, y, w, h)], r.2.2.1 ∈ w :: rects.map (·.2.2.1) := by
  intro r hr
  rcases List.mem_append.1 hr with hr | hr
  · exact List.mem_cons_of_mem _ (List.mem_map_of_mem hr)
  · simp only [List.mem_singleton] at hr
    subst hr
    exact List.mem_cons_self

theorem node_honest {lrest : Λ → List LAtom} (HL : Honest (lguard K leaf) pa lrest) (fuel : Nat) (G : NGood pa S exec) (k : Nat) :
    Honest (guard (S.node K B C) (nodeExec leaf fuel exec)) (natoms pa k) (nodeRest pa K lrest S fuel exec k) := by
  have hwid : ∀ {rects : List (Rat × Rat × Rat × Rat)} {w : Rat}, ∀ r ∈ rects, r.2.2.1 ∈ w :: rects.map (·.2.2.1) :=
    fun r hr => List.mem_cons_of_mem _ (List.mem_map_of_mem hr)
  refine ⟨?_, ?_, ?_⟩
  · intro c x y w h o ho
    obtain ⟨hfit, ho⟩ := guard_ok ho
    cases c with
    | leaf tag l =>
      obtain ⟨o', h1, rfl⟩ := tagExec_ok ho
      have := HL.step l x y w h o' ((lguard_eq hfit x y h).trans h1)
      simp only [tag_atoms, nodeRest]
      split
      · rw [← List.map_append, this]
      · rfl
    | table D rects =>
      have hfit : TableFit S D (w :: rects.map (·.2.2.1)) := hfit
      obtain ⟨ps, s, h1, ⟨-, rfl⟩ | ⟨s', h2, h3, rfl⟩⟩ := tableExec_cases ho
      · rfl
      · simp only [nodeRest, h1, h3]
        have h4 := (table_shows (K := K) G hfit mem_widths h3 k).1
        rw [List.flatMap_append] at h4 ⊢
        exact drop_next h4
    | box gap els rects =>
      have hfit : BoxFit S els (w :: rects.map (·.2.2.1)) := hfit
      obtain ⟨ps, s, h1, ⟨-, rfl⟩ | ⟨s', -, h2, h3, rfl⟩⟩ := boxExec_cases ho
      · rfl
      · simp only [nodeRest, h1, h3]
        have h4 := (box_shows G hfit mem_widths h3 k).1
        rw [List.map_append, List.flatMap_append] at h4 ⊢
        exact drop_next h4
  · intro c x y w h o ho hfin
    obtain ⟨hfit, ho⟩ := guard_ok ho
    cases c with
    | leaf tag l =>
      obtain ⟨o', h1, rfl⟩ := tagExec_ok ho
      have := HL.done l x y w h o' ((lguard_eq hfit x y h).trans h1) hfin
      simp [nodeRest, this]
    | table D rects =>
      have hfit : TableFit S D (w :: rects.map (·.2.2.1)) := hfit
      obtain ⟨ps, s, h1, ⟨hs, rfl⟩ | ⟨s', h2, h3, rfl⟩⟩ := tableExec_cases ho
      · simp only [nodeRest, h1]
        rw [(table_shows (K := K) G hfit hwid h1 k).2 hs, List.drop_length]
      · simp only [nodeRest, h3]
        rw [(table_shows (K := K) G hfit mem_widths h3 k).2 hfin]
        exact List.drop_length
    | box gap els rects =>
      have hfit : BoxFit S els (w :: rects.map (·.2.2.1)) := hfit
      obtain ⟨ps, s, h1, ⟨hs, rfl⟩ | ⟨s', -, h2, h3, rfl⟩⟩ := boxExec_cases ho
      · simp only [nodeRest, h1]
        rw [(box_shows G hfit hwid h1 k).2 hs, List.drop_length]
      · simp only [nodeRest, h3]
        rw [(box_shows G hfit mem_widths h3 k).2 hfin, List.drop_length]
  · intro c x y w h o ho hh
    obtain ⟨hfit, ho⟩ := guard_ok ho
    cases c with
    | leaf tag l =>
      obtain ⟨o', h1, rfl⟩ := tagExec_ok ho
      have := HL.zero l x y w h o' ((lguard_eq hfit x y h).trans h1) hh
      simp [tag_atoms, this]
    | table D rects =>
      have hfit : TableFit S D (w :: rects.map (·.2.2.1)) := hfit
      obtain ⟨ps, s, h1, ⟨hs, rfl⟩ | ⟨s', h2, h3, rfl⟩⟩ := tableExec_cases ho
      · rfl
      · exact table_zero G hfit hwid h1 List.mem_cons_self h2 hh k
    | box gap els rects =>
      have hfit : BoxFit S els (w :: rects.map (·.2.2.1)) := hfit
      obtain ⟨ps, s, h1, ⟨hs, rfl⟩ | ⟨s', hs, h2, h3, rfl⟩⟩ := boxExec_cases ho
      · rfl
      · exact box_zero G hfit hwid h1 hs List.mem_cons_self h2 hh k

theorem node_good (GL : LGood pa K leaf) (fuel : Nat) (G : NGood pa S exec) : NGood pa (S.node K B C) (nodeExec leaf fuel exec) where
  rest := by
    obtain ⟨lrest, HL, hfr⟩ := GL.rest
    refine ⟨nodeRest pa K lrest S fuel exec, node_honest HL fuel G, fun k c hc => ?_⟩
    cases c with
    | leaf t l =>
      simp only [nodeRest, hfr l hc]
      rfl
    | table D rects =>
      have : rects = [] := hc
      subst this
      rfl
    | box gap els rects =>
      have : rects = [] := hc
      subst this
      rfl
  next := by
    intro c x y w h o w' h1 ho h2
    cases c with
    | leaf tag l =>
      obtain ⟨o', h3, rfl⟩ := tagExec_ok ho
      exact GL.next _ _ _ _ _ _ _ h3 h2
    | table D rects =>
      have h1 : TableFit S D (w :: rects.map (·.2.2.1)) := h1
      have h2 : TableFit S D (w' :: rects.map (·.2.2.1)) := h2
      obtain ⟨ps, s, -, ⟨-, rfl⟩ | ⟨s', -, -, rfl⟩⟩ := tableExec_cases ho
      · exact h2
      · refine ⟨h2.spans, h2.rows, h2.border, h2.style, h2.cells, h2.cols, h2.blank, h2.fresh, fun i j c x hc hx W hm i' => ?_, h2.tags⟩
        rcases List.mem_cons.1 hm with rfl | hm
        · exact h2.fits i j c x hc hx _ (by simp) i'
        · obtain ⟨r, hr, rfl⟩ := List.mem_map.1 hm
          exact h1.fits i j c x hc hx _ (mem_widths r hr) i'
    | box gap els rects =>
      have h1 : BoxFit S els (w :: rects.map (·.2.2.1)) := h1
      have h2 : BoxFit S els (w' :: rects.map (·.2.2.1)) := h2
      obtain ⟨ps, s, -, ⟨-, rfl⟩ | ⟨s', -, -, -, rfl⟩⟩ := boxExec_cases ho
      · exact h2
      · have hm : ∀ W ∈ w' :: (rects ++ [(x, y, w, h)]).map (·.2.2.1), W ∈ w :: rects.map (·.2.2.1) ∨ W ∈ w' :: rects.map (·.2.2.1) := by
          intro W hm
          rcases List.mem_cons.1 hm with rfl | hm
          · exact Or.inr (by simp)
          · obtain ⟨r, hr, rfl⟩ := List.mem_map.1 hm
            exact Or.inl (mem_widths r hr)
        refine ⟨fun e he => ?_, h2.fresh, fun c st he W hW => ?_, h2.tags⟩
        · have t1 := h1.tidy e he
          have t2 := h2.tidy e he
          cases e with
          | leaf c st => exact t1
          | image i =>
            refine ⟨t1.1, t1.2.1, t1.2.2.1, t1.2.2.2.1, fun W hW => ?_⟩
            rcases hm W hW with hW | hW
            · exact t1.2.2.2.2 W hW
            · exact t2.2.2.2.2 W hW
          | group l t st => exact t1
          | child => exact t1
        · rcases hm W hW with hW | hW
          · exact h1.fits c st he W hW
          · exact h2.fits c st he W hW
  void := by
    intro c hc
    cases c with
    | leaf t l =>
      obtain ⟨h1, h2, h3⟩ := GL.void l hc
      exact ⟨h1, h2, fun k => by simp [NSpec.node, h3]⟩
    | table D rects => exact hc.elim
    | box gap els rects => exact hc.elim
  tags := by
    intro k c hc
    cases c with
    | leaf t l =>
      by_cases h : t = k
      · simp [NSpec.node, h]
      · simp [NSpec.node, h] at hc
    | table D rects =>
      obtain ⟨x, hx⟩ := List.exists_mem_of_ne_nil _ hc
      obtain ⟨row, hrow, hx⟩ := List.mem_flatMap.1 hx
      obtain ⟨c, hc', hx⟩ := List.mem_flatMap.1 hx
      refine List.mem_flatMap.2 ⟨row, hrow, List.mem_flatMap.2 ⟨c, hc', ?_⟩⟩
      cases hy : c.bind (·.content) with
      | none => rw [hy] at hx; cases hx
      | some y => rw [hy] at hx; exact G.tags k y (List.ne_nil_of_mem hx)
    | box gap els rects =>
      obtain ⟨x, hx⟩ := List.exists_mem_of_ne_nil _ hc
      obtain ⟨e, he, hx⟩ := List.mem_flatMap.1 hx
      refine List.mem_flatMap.2 ⟨e, he, ?_⟩
      cases e with
      | leaf c st => exact G.tags k c (List.ne_nil_of_mem hx)
      | image i =>
        simp only [NSpec.elTotal] at hx
        split at hx
        · rename_i h; simp [NSpec.elTags, h]
        · cases hx
      | group l t st => cases hx
      | child => cases hx

/-- contents of every depth show what they hold -/
theorem nest_good (GL : LGood pa K leaf) (fuel : Nat) (n : Nat) : NGood pa (nestSpec K B C n) (nestExec leaf fuel n) := by
  induction n with
  | zero => exact ⟨⟨fun _ c => c.elim, fun _ => ⟨fun c => c.elim, fun c => c.elim, fun c => c.elim⟩, fun _ c => c.elim⟩, fun c => c.elim, fun c => c.elim, fun _ c => c.elim⟩
  | succ n ih => exact node_good GL fuel ih

end
end Verif
