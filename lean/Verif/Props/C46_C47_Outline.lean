import Verif.Model.Outline
import Verif.Lemmas.Table
/-! C46: the outline tree is consistent. C47: outlines nest by document order. -/
namespace Verif
open Spec

/-- the old objects after a list of siblings was added: only a link changed -/
def linked (b : Base) (parent : Nat) (prev : Option Nat) (first j : Nat) : Option (List (Key × Obj)) :=
  match prev with
  | none => if j = parent then (b.dictAt j).map (dset kFirst (.ref first)) else b.dictAt j
  | some p => if j = p then (b.dictAt j).map (dset kNext (.ref first)) else b.dictAt j

/-- the dict of a new item -/
def itemDict (parent : Nat) (prev : Option Nat) (text label : Str) : List (Key × Obj) :=
  match prev with
  | none => [(kTitle, .str text), (kParent, .ref parent), (kDest, .str label)]
  | some p => [(kTitle, .str text), (kParent, .ref parent), (kDest, .str label), (kPrev, .ref p)]

theorem outlineObj_spec (b : Base) (parent : Nat) (prev : Option Nat) (text label : Str) (hw : b.Wf)
    (hp : parent < b.count) (hq : ∀ p, prev = some p → p < b.count) :
    (outlineObj b parent prev text label).1 = b.count ∧ (outlineObj b parent prev text label).2.Wf ∧
    (outlineObj b parent prev text label).2.count = b.count + 1 ∧
    (outlineObj b parent prev text label).2.dictAt b.count = some (itemDict parent prev text label) ∧
    ∀ j, j < b.count → (outlineObj b parent prev text label).2.dictAt j = linked b parent prev b.count j := by
  cases prev with
  | none =>
    refine ⟨rfl, (hw.addDict _).modify _ _, ?_, ?_, ?_⟩
    · simp only [outlineObj, modify_count]; rfl
    · simp only [outlineObj]
      rw [dictAt_modify_ne _ _ (by omega)]
      exact dictAt_add_self hw _
    · intro j hj
      simp only [outlineObj, linked]
      rw [dictAt_modify, dictAt_add_ne hw _ (by omega)]
      rfl
  | some p =>
    have hp' := hq p rfl
    refine ⟨rfl, ((hw.addDict _).modify _ _).modify _ _, ?_, ?_, ?_⟩
    · simp only [outlineObj, modify_count]; rfl
    · simp only [outlineObj]
      rw [dictAt_modify_ne _ _ (by omega)]
      exact dictAt_modify_self _ (dictAt_add_self hw _)
    · intro j hj
      simp only [outlineObj, linked]
      rw [dictAt_modify, dictAt_modify_ne _ _ (by simp only [Base.addDict]; omega), dictAt_add_ne hw _ (by omega)]
      rfl

/-- the final link of an item to its next sibling -/
def nextLink (next : Option Nat) (d : List (Key × Obj)) : List (Key × Obj) :=
  match next with
  | none => d
  | some n => dset kNext (.ref n) d

mutual
theorem outlineItem_spec : ∀ (o : Outline) (level : Int) (parent : Nat) (b : Base) (prev : Option Nat), b.Wf →
    parent < b.count → (∀ p, prev = some p → p < b.count) →
    (outlineItem level parent b prev o).1 = b.count ∧ (outlineItem level parent b prev o).2.1.Wf ∧
    (outlineItem level parent b prev o).2.2 = visibleItem level o ∧
    b.count < (outlineItem level parent b prev o).2.1.count ∧
    (∀ j, j < b.count → (outlineItem level parent b prev o).2.1.dictAt j = linked b parent prev b.count j) ∧
    (∃ d, (outlineItem level parent b prev o).2.1.dictAt b.count = some d) ∧
    ∀ (next : Option Nat) (tbl : Table),
      (∀ j d, b.count < j → (outlineItem level parent b prev o).2.1.dictAt j = some d → tbl j = some d) →
      tbl b.count = ((outlineItem level parent b prev o).2.1.dictAt b.count).map (nextLink next) →
      OutItem tbl level parent prev next b.count o
  | .node text label [], level, parent, b, prev, hw, hp, hq => by
    obtain ⟨h1, h2, h3, h4, h5⟩ := outlineObj_spec b parent prev text label hw hp hq
    simp only [outlineItem]
    refine ⟨h1, h2, ?_, by omega, h5, ⟨_, h4⟩, ?_⟩
    · simp [visibleItem, visible]
    · intro next tbl _ htbl
      rw [h4] at htbl
      refine .mk htbl ?_ ?_ ?_ ?_ ?_ (.leaf ?_ ?_ ?_) <;> cases prev <;> cases next <;> rfl
  | .node text label (c :: cs), level, parent, b, prev, hw, hp, hq => by
    obtain ⟨h1, h2, h3, h4, h5⟩ := outlineObj_spec b parent prev text label hw hp hq
    obtain ⟨g1, last, g2, g3, g4, g5, g6⟩ := outlineLoop_spec (c :: cs) (level - 1) b.count
      (outlineObj b parent prev text label).2 none 0 (by simp) h2 (by omega) (by simp)
    rw [Nat.zero_add] at g1
    simp only [outlineItem, h1]
    generalize ht : outlineLoop (level - 1) b.count (outlineObj b parent prev text label).2 none 0 (c :: cs) = t at *
    have hd : t.1.dictAt b.count = some (dset kFirst (.ref ((b.count + 1 : Nat) : Int)) (itemDict parent prev text label)) := by
      rw [g5 b.count (by omega)]
      simp only [linked, if_true, h4, h3]
      rfl
    have hold : ∀ j, j < b.count → t.1.dictAt j = linked b parent prev b.count j := by
      intro j hj
      rw [g5 j (by omega)]
      simp only [linked, if_neg (show j ≠ b.count by omega)]
      rw [h5 j hj]
      rfl
    have main : ∀ (n : Int) (b2 : Base),
        b2 = (t.1.modify b.count (dset kLast (.ref ((t.2.2.getD 0 : Nat) : Int)))).modify b.count (dset kCount (.int n)) →
        (level > 1 → n = visible (level - 1) (c :: cs)) → (level ≤ 1 → n < 0) →
        b2.Wf ∧ b.count < b2.count ∧ (∀ j, j < b.count → b2.dictAt j = linked b parent prev b.count j) ∧
        (∃ d, b2.dictAt b.count = some d) ∧
        ∀ (next : Option Nat) (tbl : Table), (∀ j d, b.count < j → b2.dictAt j = some d → tbl j = some d) →
          tbl b.count = (b2.dictAt b.count).map (nextLink next) →
          OutItem tbl level parent prev next b.count (.node text label (c :: cs)) := by
      intro n b2 hb2 hn1 hn2
      subst hb2
      refine ⟨(g3.modify _ _).modify _ _, by simp only [modify_count]; omega, ?_,
        ⟨_, dictAt_modify_self _ (dictAt_modify_self _ hd)⟩, ?_⟩
      · intro j hj
        rw [dictAt_modify_ne _ _ (by omega), dictAt_modify_ne _ _ (by omega), hold j hj]
      · intro next tbl ha htbl
        rw [dictAt_modify_self _ (dictAt_modify_self _ hd), g2] at htbl
        simp only [Option.map_some, Option.getD_some] at htbl
        refine .mk htbl ?_ ?_ ?_ ?_ ?_ (.inner (first := b.count + 1) (last := last) (n := n) ?_ ?_ ?_ hn1 hn2 ?_)
        · cases prev <;> cases next <;> rfl
        · cases prev <;> cases next <;> rfl
        · cases prev <;> cases next <;> rfl
        · cases prev <;> cases next <;> rfl
        · cases prev <;> cases next <;> rfl
        · cases prev <;> cases next <;> rfl
        · cases prev <;> cases next <;> rfl
        · cases prev <;> cases next <;> rfl
        · have := g6 tbl fun j d hj hjd => ha j d (by omega) (by
            rw [dictAt_modify_ne _ _ (by omega), dictAt_modify_ne _ _ (by omega)]; exact hjd)
          rw [h3] at this
          exact this
    by_cases hl : level > 1
    · simp only [if_pos hl]
      obtain ⟨m1, m2, m3, m4⟩ := main (t.2.1 : Nat) _ rfl (fun _ => by rw [g1]) (fun h => by omega)
      refine ⟨trivial, m1, ?_, m2, m3, m4⟩
      rw [g1, visibleItem, if_pos hl]
    · simp only [if_neg hl]
      obtain ⟨m1, m2, m3, m4⟩ := main (-1) _ rfl (fun h => absurd h hl) (fun _ => by omega)
      refine ⟨trivial, m1, ?_, m2, m3, m4⟩
      rw [visibleItem, if_neg hl]
theorem outlineLoop_spec : ∀ (l : List Outline) (level : Int) (parent : Nat) (b : Base) (prev : Option Nat) (count : Nat),
    l ≠ [] → b.Wf → parent < b.count → (∀ p, prev = some p → p < b.count) →
    (outlineLoop level parent b prev count l).2.1 = count + visible level l ∧
    ∃ last, (outlineLoop level parent b prev count l).2.2 = some last ∧
    (outlineLoop level parent b prev count l).1.Wf ∧ b.count < (outlineLoop level parent b prev count l).1.count ∧
    (∀ j, j < b.count → (outlineLoop level parent b prev count l).1.dictAt j = linked b parent prev b.count j) ∧
    ∀ tbl : Table,
      (∀ j d, b.count ≤ j → (outlineLoop level parent b prev count l).1.dictAt j = some d → tbl j = some d) →
      OutSibs tbl level parent prev b.count last l
  | [], _, _, _, _, _ => fun h => absurd rfl h
  | [o], level, parent, b, prev, count => fun _ hw hp hq => by
    obtain ⟨h1, h2, h3, h4, h5, ⟨d, hd⟩, h6⟩ := outlineItem_spec o level parent b prev hw hp hq
    simp only [outlineLoop]
    refine ⟨by rw [h3]; simp [visible], b.count, by rw [h1], h2, h4, h5, ?_⟩
    intro tbl ha
    refine .one (h6 none tbl (fun j d hj => ha j d (by omega)) ?_)
    rw [hd, ha b.count d (Nat.le_refl _) hd]
    rfl
  | o :: o' :: l, level, parent, b, prev, count => fun _ hw hp hq => by
    obtain ⟨h1, h2, h3, h4, h5, ⟨d, hd⟩, h6⟩ := outlineItem_spec o level parent b prev hw hp hq
    rw [outlineLoop]
    simp only [h1, h3]
    generalize hr : outlineItem level parent b prev o = r at *
    obtain ⟨g1, last, g2, g3, g4, g5, g6⟩ := outlineLoop_spec (o' :: l) level parent r.2.1 (some b.count)
      (count + visibleItem level o) (by simp) h2 (by omega) (fun p hp => by cases hp; exact h4)
    generalize ht : outlineLoop level parent r.2.1 (some b.count) (count + visibleItem level o) (o' :: l) = t at *
    refine ⟨by rw [g1]; simp only [visible]; omega, last, g2, g3, by omega, ?_, ?_⟩
    · intro j hj
      rw [g5 j (by omega)]
      simp only [linked, if_neg (show j ≠ b.count by omega)]
      rw [h5 j hj]
      rfl
    · intro tbl ha
      refine .cons (next := r.2.1.count) (h6 (some r.2.1.count) tbl ?_ ?_) (g6 tbl fun j d hj => ha j d (by omega))
      · intro j d' hj hjd
        refine ha j d' (by omega) ?_
        rw [g5 j (dictAt_lt h2 hjd).2]
        simp only [linked, if_neg (show j ≠ b.count by omega)]
        exact hjd
      · have := ha b.count (dset kNext (.ref r.2.1.count) d) (Nat.le_refl _) (by
          rw [g5 b.count h4]
          simp only [linked, if_true, hd]
          rfl)
        rw [this, hd]
        rfl
end

/-- **C46.** For every outline forest the document's catalog leads to an outline root whose items, followed
through First, Next, Last, Prev and Parent, are exactly the forest with its titles and destinations; the
root counts the items visible at the configured level, open items count their visible descendants; the
other objects of the document and the other entries of the catalog are left alone. -/
theorem C46_outline_tree (b : Base) (root : Nat) (level : Int) (forest : List Outline) (hw : b.Wf)
    (d : List (Key × Obj)) (hroot : b.dictAt root = some d) (hne : forest ≠ []) :
    ∃ (b' : Base) (n first last : Nat) (dr dn : List (Key × Obj)), buildOutlines root level b forest = b' ∧
      b'.dictAt root = some dr ∧ dget (.str c!"Outlines") dr = some (.ref n) ∧
      b'.dictAt n = some dn ∧ dget (.str c!"First") dn = some (.ref first) ∧ dget (.str c!"Last") dn = some (.ref last) ∧
      dget (.str c!"Count") dn = some (.int (visible level forest)) ∧
      OutSibs b'.dictAt level n none first last forest ∧
      (∀ j, j < b.count → j ≠ root → b'.dictAt j = b.dictAt j) ∧
      (∀ k, k ≠ .str c!"PageMode" → k ≠ .str c!"Outlines" → dget k dr = dget k d) ∧ b'.count = b'.content.length + 1 := by
  have hr := dictAt_lt hw hroot
  let b1 := ((b.addDict [(kType, .bytes b!"/Outlines")]).2.modify root (dset kPageMode (.bytes b!"/UseOutlines"))).modify root
    (dset kOutlines (.ref b.count))
  have hw1 : b1.Wf := ((hw.addDict _).modify _ _).modify _ _
  have hc1 : b1.count = b.count + 1 := by simp only [b1, modify_count]; rfl
  have hd1 : b1.dictAt b.count = some [(kType, .bytes b!"/Outlines")] := by
    simp only [b1]
    rw [dictAt_modify_ne _ _ (by omega), dictAt_modify_ne _ _ (by omega), dictAt_add_self hw]
  have hr1 : b1.dictAt root = some (dset kOutlines (.ref b.count) (dset kPageMode (.bytes b!"/UseOutlines") d)) := by
    simp only [b1]
    rw [dictAt_modify_self _ (dictAt_modify_self _ (by rw [dictAt_add_ne hw _ (by omega)]; exact hroot))]
  have ho1 : ∀ j, j < b.count → j ≠ root → b1.dictAt j = b.dictAt j := by
    intro j g1 g2
    simp only [b1]
    rw [dictAt_modify_ne _ _ g2, dictAt_modify_ne _ _ g2, dictAt_add_ne hw _ (by omega)]
  obtain ⟨g1, last, g2, g3, g4, g5, g6⟩ := outlineLoop_spec forest level b.count b1 none 0 hne hw1 (by omega) (by simp)
  have hlen : forest.length ≠ 0 := fun e => hne (List.length_eq_zero_iff.1 e)
  rw [Nat.zero_add] at g1
  have hd2 : (outlineLoop level b.count b1 none 0 forest).1.dictAt b.count =
      some [(kType, .bytes b!"/Outlines"), (kFirst, .ref ((b.count + 1 : Nat) : Int))] := by
    rw [g5 b.count (by omega)]
    simp only [linked, if_true, hd1, hc1]
    rfl
  refine ⟨_, b.count, b.count + 1, last, dset kOutlines (.ref b.count) (dset kPageMode (.bytes b!"/UseOutlines") d),
    [(kType, .bytes b!"/Outlines"), (kFirst, .ref ((b.count + 1 : Nat) : Int)), (kLast, .ref last),
      (kCount, .int (visible level forest))], rfl, ?_, ?_, ?_, rfl, rfl, rfl, ?_, ?_, ?_, ?_⟩
  · simp only [buildOutlines, if_neg hlen]
    rw [dictAt_modify_ne _ _ (by simp only [Base.addDict]; omega), dictAt_modify_ne _ _ (by simp only [Base.addDict]; omega)]
    refine (g5 root (by omega)).trans ?_
    simp only [linked, if_neg (show root ≠ b.count by omega)]
    exact hr1
  · exact dget_dset_self kOutlines _ _
  · simp only [buildOutlines, if_neg hlen]
    refine (dictAt_modify_self _ (dictAt_modify_self _ hd2)).trans ?_
    change some (dset kCount (Obj.int ((outlineLoop level b.count b1 none 0 forest).2.1 : Nat)) (dset kLast
      (Obj.ref ((outlineLoop level b.count b1 none 0 forest).2.2.getD 0 : Nat)) _)) = _
    rw [g1, g2]
    rfl
  · rw [← hc1]
    refine g6 _ fun j d hj hjd => ?_
    simp only [buildOutlines, if_neg hlen]
    rw [dictAt_modify_ne _ _ (by simp only [Base.addDict]; omega), dictAt_modify_ne _ _ (by simp only [Base.addDict]; omega)]
    exact hjd
  · intro j k1 k2
    simp only [buildOutlines, if_neg hlen]
    rw [dictAt_modify_ne _ _ (by simp only [Base.addDict]; omega), dictAt_modify_ne _ _ (by simp only [Base.addDict]; omega)]
    refine (g5 j (by omega)).trans ?_
    simp only [linked, if_neg (show j ≠ b.count by omega)]
    exact ho1 j k1 k2
  · intro k k1 k2
    exact (dget_dset_ne (k := kOutlines) (Ne.symm k2) _ _).trans (dget_dset_ne (k := kPageMode) (Ne.symm k1) _ _)
  · simp only [buildOutlines, if_neg hlen]
    exact (g3.modify _ _).modify _ _

/-- without outlines nothing is added -/
theorem C46_no_outlines (b : Base) (root : Nat) (level : Int) : buildOutlines root level b [] = b := rfl

/-- two chapters, the first with two sections, opened at level 2: three items below the root's count of 4 -/
example :
    let b := buildOutlines 1 2 (PdfDoc.new c!"1.5").base
      [.node c!"One" c!"l1" [.node c!"A" c!"l2" [], .node c!"B" c!"l3" [.node c!"x" c!"l5" []]], .node c!"Two" c!"l4" []]
    (b.dictAt 2).bind (dget kCount) = some (.int 4) ∧ (b.dictAt 3).bind (dget kNext) = some (.ref 7) ∧
      (b.dictAt 3).bind (dget kCount) = some (.int 2) ∧ (b.dictAt 5).bind (dget kCount) = some (.int (-1)) := ⟨rfl, rfl, rfl, rfl⟩

/-! ### C47 -/

mutual
def spineItem : Outline → Nat
  | .node _ _ ch => 1 + spine ch
/-- the level of the last item in document order -/
def spine : List Outline → Nat
  | [] => 0
  | [o] => spineItem o
  | _ :: o :: l => spine (o :: l)
end

theorem spine_append (l : List Outline) (o : Outline) : spine (l ++ [o]) = spineItem o := by
  induction l with
  | nil => simp [spine]
  | cons a l ih =>
    cases l with
    | nil => simp [spine]
    | cons c l => simpa [spine] using ih

theorem preorder_append (k : Nat) (l l' : List Outline) : preorder k (l ++ l') = preorder k l ++ preorder k l' := by
  induction l with
  | nil => rfl
  | cons o l ih => simp [preorder, ih]

theorem insertDown_spec (text label : Str) : ∀ (k : Nat) (l : List Outline),
    (k ≤ spine l → ∃ l', insertDown (.node text label []) k l = .ok l' ∧ spine l' = k + 1 ∧
      ∀ j, preorder j l' = preorder j l ++ [(j + k, text, label)]) ∧
    (spine l < k → insertDown (.node text label []) k l = .error .indexError) := by
  intro k
  induction k with
  | zero =>
    intro l
    refine ⟨fun _ => ⟨_, rfl, ?_, ?_⟩, fun h => by omega⟩
    · rw [spine_append]; simp [spineItem, spine]
    · intro j
      rw [preorder_append]
      simp [preorder, preItem]
  | succ k ih =>
    intro l
    rcases List.eq_nil_or_concat l with rfl | ⟨l0, ⟨t, lb, ch⟩, rfl⟩
    · exact ⟨fun h => by simp [spine] at h, fun _ => rfl⟩
    · rw [List.concat_eq_append, spine_append]
      obtain ⟨h1, h2⟩ := ih ch
      simp only [insertDown, List.getLast?_append, List.getLast?_singleton, Option.some_or, List.dropLast_concat, spineItem]
      constructor
      · intro hk
        obtain ⟨ch', g1, g2, g3⟩ := h1 (by omega)
        refine ⟨l0 ++ [.node t lb ch'], by rw [g1], ?_, ?_⟩
        · rw [spine_append, spineItem, g2]; omega
        · intro j
          rw [preorder_append, preorder_append]
          simp only [preorder, preItem, List.append_nil, g3 (j + 1), List.append_assoc, List.cons_append]
          rw [show j + 1 + k = j + (k + 1) by omega]
      · intro hk
        rw [h2 (by omega)]

theorem insertAll_spec : ∀ (seq : List (Int × Str × Str)) (l : List Outline),
    (Spec.noSkip (spine l) seq → ∃ l', insertAll l seq = .ok l' ∧
      preorder 1 l' = preorder 1 l ++ seq.map fun x => (Spec.outlineLevel x.1, x.2)) ∧
    (¬ Spec.noSkip (spine l) seq → insertAll l seq = .error .indexError) := by
  intro seq
  induction seq with
  | nil => intro l; exact ⟨fun _ => ⟨l, rfl, by simp⟩, fun h => absurd trivial h⟩
  | cons x seq ih =>
    intro l
    obtain ⟨level, t, lb⟩ := x
    have hlev : (level - 1).toNat + 1 = Spec.outlineLevel level := by
      unfold Spec.outlineLevel; split <;> omega
    obtain ⟨h1, h2⟩ := insertDown_spec t lb (level - 1).toNat l
    simp only [insertAll, insertOutline, Spec.noSkip]
    by_cases hk : (level - 1).toNat ≤ spine l
    · obtain ⟨l1, g1, g2, g3⟩ := h1 hk
      rw [g1]
      simp only
      have hi := ih l1
      rw [g2, hlev] at hi
      constructor
      · rintro ⟨_, hn⟩
        obtain ⟨l', k1, k2⟩ := hi.1 hn
        refine ⟨l', k1, ?_⟩
        rw [k2, g3 1]
        simp only [List.map_cons, List.append_assoc, List.cons_append, List.nil_append]
        rw [show 1 + (level - 1).toNat = Spec.outlineLevel level by omega]
      · intro hn
        exact hi.2 fun h => hn ⟨by omega, h⟩
    · rw [h2 (by omega)]
      exact ⟨fun h => absurd h.1 (by omega), fun _ => rfl⟩

/-- **C47.** Outlines added in document order: when no level skips over a missing parent, the forest read
in document order is exactly the sequence added, every item at its own level (so each item of level
k hangs below the last item of level k - 1 before it); otherwise adding them fails with an `IndexError`. -/
theorem C47_outline_levels (seq : List (Int × Str × Str)) :
    (Spec.noSkip 0 seq → ∃ forest, insertAll [] seq = .ok forest ∧
      preorder 1 forest = seq.map fun x => (Spec.outlineLevel x.1, x.2)) ∧
    (¬ Spec.noSkip 0 seq → insertAll [] seq = .error .indexError) := by
  have h := insertAll_spec seq []
  simpa [spine, preorder] using h

/-- what may follow the items of level `k` -/
def After (k : Nat) (r : List (Nat × Str × Str)) : Prop := ∀ x ∈ r.head?, x.1 < k

theorem after_preorder (k : Nat) (l : List Outline) (r : List (Nat × Str × Str)) (h : After k r) :
    After (k + 1) (preorder k l ++ r) := by
  cases l with
  | nil => intro x hx; have := h x hx; omega
  | cons o l =>
    obtain ⟨t, lb, ch⟩ := o
    intro x hx
    simp only [preorder, preItem, List.cons_append, List.head?_cons, Option.mem_def, Option.some.injEq] at hx
    subst hx
    simp

theorem preorder_unique : ∀ (l l' : List Outline) (k : Nat) (r r' : List (Nat × Str × Str)), After k r → After k r' →
    preorder k l ++ r = preorder k l' ++ r' → l = l' ∧ r = r'
  | [], [], _, _, _ => fun _ _ h => ⟨rfl, by simpa [preorder] using h⟩
  | [], .node t lb ch :: l', k, r, r' => fun hr _ h => by
    simp only [preorder, preItem, List.nil_append, List.cons_append] at h
    have := hr (k, t, lb) (by rw [h]; rfl)
    simp at this
  | .node t lb ch :: l, [], k, r, r' => fun _ hr' h => by
    simp only [preorder, preItem, List.nil_append, List.cons_append] at h
    have := hr' (k, t, lb) (by rw [← h]; rfl)
    simp at this
  | .node t lb ch :: l, .node t' lb' ch' :: l', k, r, r' => fun hr hr' h => by
    simp only [preorder, preItem, List.cons_append, List.cons.injEq, Prod.mk.injEq, true_and, List.append_assoc] at h
    obtain ⟨⟨rfl, rfl⟩, h⟩ := h
    obtain ⟨rfl, h2⟩ := preorder_unique ch ch' (k + 1) _ _ (after_preorder k l r hr) (after_preorder k l' r' hr') h
    obtain ⟨rfl, h3⟩ := preorder_unique l l' k r r' hr hr' h2
    exact ⟨rfl, h3⟩

/-- document order with levels determines the forest, so `C47_outline_levels` describes it completely -/
theorem C47_forest_unique (f g : List Outline) (h : preorder 1 f = preorder 1 g) : f = g :=
  (preorder_unique f g 1 [] [] (by simp [After]) (by simp [After]) (by simpa using h)).1

example : Spec.noSkip 0 [(1, c!"a", c!"x"), (2, c!"b", c!"y"), (3, c!"c", c!"z"), (0, c!"d", c!"w")] ∧
    ¬ Spec.noSkip 0 [(1, c!"a", c!"x"), (3, c!"b", c!"y")] := by
  simp [Spec.noSkip, Spec.outlineLevel]

end Verif
