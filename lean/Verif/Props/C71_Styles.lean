import Verif.Lemmas.Styles
/-! C71: the style of a paragraph, image, table or cell is what is said nearest to it. -/
namespace Verif
open Spec

variable {V : Type}

theorem elementStyles_keeps {X : StyleCtx V} (hX : FormatsDict X) {dot : Str} {st : StyleArg V} (hst : ArgDict st) {inh : List (Str × V)}
    {L : List (List (Str × V))} (h : KeepsKey inh L) {r : List (Str × V) × List (Str × V)} (e : elementStyles X (some dot) st inh = .ok r) :
    KeepsKey r.1 (given X st :: written X dot :: L) := by
  simp only [elementStyles] at e
  cases h1 : dotStyle X (some dot) with
  | error x => rw [h1] at e; cases e
  | ok d =>
    rw [h1] at e
    cases h2 : processStyle X st with
    | error x => rw [h2] at e; cases e
    | ok s =>
      rw [h2] at e
      cases e
      obtain rfl := dotStyle_ok h1
      obtain rfl := processStyle_ok h2
      have h0 : KeepsKey (dupdate [] inh) L := (h.over isDict_nil).same fun k => by rw [says_append, says_cons, says_nil]; simp [dget]
      exact (h0.update (written_strStyle X dot).1).update (given_dict hX hst)

theorem elementStyles_keeps' {X : StyleCtx V} (hX : FormatsDict X) {st : StyleArg V} (hst : ArgDict st) {inh : List (Str × V)}
    {L : List (List (Str × V))} (h : KeepsKey inh L) {r : List (Str × V) × List (Str × V)} (e : elementStyles X none st inh = .ok r) :
    KeepsKey r.1 (given X st :: L) := by
  simp only [elementStyles, dotStyle] at e
  cases h2 : processStyle X st with
  | error x => rw [h2] at e; cases e
  | ok s =>
    rw [h2] at e
    cases e
    obtain rfl := processStyle_ok h2
    have h0 : KeepsKey (dupdate [] inh) L := (h.over isDict_nil).same fun k => by rw [says_append, says_cons, says_nil]; simp [dget]
    exact h0.update (given_dict hX hst)

theorem textDefaults_says (X : StyleCtx V) (k : Str) : dget k (textDefaults X) = says [textLayer X] k := by
  rw [says_cons, says_nil, Option.or_none]
  simp only [textDefaults, textLayer, dget]
  by_cases h1 : c!"f" = k
  · subst h1; rfl
  · by_cases h2 : c!"c" = k
    · subst h2; rfl
    · by_cases h3 : c!"s" = k
      · subst h3; rfl
      · by_cases h4 : c!"r" = k
        · subst h4; rfl
        · by_cases h5 : c!"bg" = k
          · subst h5; rfl
          · simp [h1, h2, h3, h4, h5]

/-- the text of a paragraph whose style has the style string among its layers -/
theorem textStyle_follows {X : StyleCtx V} {dot : Str} {s : List (Str × V)} {P : List (List (Str × V))} (h : KeepsKey s P)
    (hdot : ∀ k, says P k = none → dget k (written X dot) = none) {f : List (Str × V)} (e : textStyle X (some dot) s = .ok f) :
    Follows f (P ++ [textLayer X]) := by
  simp only [textStyle] at e
  cases h1 : dotStyle X (some dot) with
  | error x => rw [h1] at e; cases e
  | ok d =>
    rw [h1] at e
    cases e
    obtain rfl := dotStyle_ok h1
    intro k
    rw [dget_update h.dict, dget_update (written_strStyle X dot).1, h.follows k, says_append, textDefaults_says]
    cases hP : says P k with
    | some v => rfl
    | none => rw [hdot k hP]; simp

theorem partStyle_keeps {X : StyleCtx V} (hX : FormatsDict X) {st : StyleArg V} (hst : ArgDict st) {inh : List (Str × V)}
    {L : List (List (Str × V))} (h : KeepsKey inh L) {r : List (Str × V)} (e : partStyle X inh st = .ok r) :
    KeepsKey r (given X st :: (L ++ [boxLayer X])) := by
  simp only [partStyle] at e
  cases h2 : processStyle X st with
  | error x => rw [h2] at e; cases e
  | ok s =>
    rw [h2] at e
    cases e
    obtain rfl := processStyle_ok h2
    exact (h.over (b := boxLayer X) (by simp [IsDict, boxLayer])).update (given_dict hX hst)

/-- the style of a table: its borders, and what its cells get -/
theorem tableStyle_keeps {X : StyleCtx V} {s : List (Str × V)} {L : List (List (Str × V))} (h : KeepsKey s L) {t : TableStyle V}
    (e : tableStyle X (.dict s) = .ok t) : Meets X (.table t) (.table L) ∧ KeepsKey t.style (hide borderKeys L ++ [tableLayer X]) := by
  simp only [tableStyle, processStyle] at e
  cases e
  have hb : KeepsKey (dupdate [(c!"cell_margin", X.num 5), (c!"cell_fill", X.vnone)] s)
      (L ++ [[(c!"cell_margin", X.num 5), (c!"cell_fill", X.vnone)]]) := h.over (by simp [IsDict])
  have hf := hb.follows
  have hnone : ∀ k, k ∈ borderKeys → says [[(c!"cell_margin", X.num 5), (c!"cell_fill", X.vnone)]] k = none := by
    intro k hk
    simp only [borderKeys, List.mem_cons, List.not_mem_nil, or_false] at hk
    rcases hk with rfl | rfl | rfl <;> rfl
  have hL : ∀ k, k ∈ borderKeys → dget k (dupdate [(c!"cell_margin", X.num 5), (c!"cell_fill", X.vnone)] s) = says L k := by
    intro k hk
    rw [hf k, says_append, hnone k hk, Option.or_none]
  refine ⟨⟨?_, ?_, ?_⟩, ?_, ?_⟩
  · simp only [dpop]
    rw [hL _ (by simp [borderKeys])]
  · show ((dget c!"border_color" (dpop c!"border_width" _ _).2).getD (X.num 0)) = _
    rw [dget_dpop, if_neg (by decide), hL _ (by simp [borderKeys])]
  · show ((dget c!"border_style" (dpop c!"border_color" _ (dpop c!"border_width" _ _).2).2).getD (X.str c!"solid")) = _
    rw [dget_dpop, if_neg (by decide), dget_dpop, if_neg (by decide), hL _ (by simp [borderKeys])]
  · exact isDict_pop (isDict_pop (isDict_pop hb.dict _ (X.num (1/2))) _ (X.num 0)) _ (X.str c!"solid")
  · intro k
    show dget k (dpop c!"border_style" (X.str c!"solid") (dpop c!"border_color" (X.num 0) (dpop c!"border_width" (X.num (1/2)) _).2).2).2 = _
    rw [dget_dpop, dget_dpop, dget_dpop, says_append, says_hide, hf k, says_append]
    have e1 : says [tableLayer X] k = says [[(c!"cell_margin", X.num 5), (c!"cell_fill", X.vnone)]] k := by
      simp only [tableLayer, says_cons, says_nil, dget]
      by_cases h1 : c!"cell_margin" = k
      · subst h1; rfl
      · by_cases h2 : c!"cell_fill" = k
        · subst h2; rfl
        · simp [h1, h2]
    by_cases hk : k ∈ borderKeys
    · rw [if_pos hk, e1, hnone k hk]
      simp only [borderKeys, List.mem_cons, List.not_mem_nil, or_false] at hk
      rcases hk with rfl | rfl | rfl <;> simp
    · rw [if_neg hk, e1]
      simp only [borderKeys, List.mem_cons, List.not_mem_nil, or_false, not_or] at hk
      rw [if_neg hk.2.2, if_neg hk.2.1, if_neg hk.1]

/-- a cell: its margins and its fill, and what is inside gets the rest -/
theorem cellRest_keeps {X : StyleCtx V} {s : List (Str × V)} {P : List (List (Str × V))} (h : KeepsKey s P) :
    let c1 := dpop c!"cell_margin_top" ((dget c!"cell_margin" s).getD X.vnone) s
    let c2 := dpop c!"cell_margin_right" ((dget c!"cell_margin" c1.2).getD X.vnone) c1.2
    let c3 := dpop c!"cell_margin_bottom" ((dget c!"cell_margin" c2.2).getD X.vnone) c2.2
    let c4 := dpop c!"cell_margin_left" ((dget c!"cell_margin" c3.2).getD X.vnone) c3.2
    let c5 := dpop c!"cell_margin" X.vnone c4.2
    let c6 := dpop c!"cell_fill" X.vnone c5.2
    Meets X (.cell ⟨c1.1, c2.1, c3.1, c4.1, c6.1⟩) (.cell P) ∧ KeepsKey c6.2 (hide cellKeys P) := by
  intro c1 c2 c3 c4 c5 c6
  have hf := h.follows
  have g1 : ∀ k, dget k c1.2 = if k = c!"cell_margin_top" then none else dget k s := fun k => dget_dpop _ _ _ _
  have g2 : ∀ k, dget k c2.2 = if k = c!"cell_margin_right" then none else dget k c1.2 := fun k => dget_dpop _ _ _ _
  have g3 : ∀ k, dget k c3.2 = if k = c!"cell_margin_bottom" then none else dget k c2.2 := fun k => dget_dpop _ _ _ _
  have g4 : ∀ k, dget k c4.2 = if k = c!"cell_margin_left" then none else dget k c3.2 := fun k => dget_dpop _ _ _ _
  have g5 : ∀ k, dget k c5.2 = if k = c!"cell_margin" then none else dget k c4.2 := fun k => dget_dpop _ _ _ _
  have g6 : ∀ k, dget k c6.2 = if k = c!"cell_fill" then none else dget k c5.2 := fun k => dget_dpop _ _ _ _
  have m1 : dget c!"cell_margin" c1.2 = says P c!"cell_margin" := by rw [g1, if_neg (by decide), hf]
  have m2 : dget c!"cell_margin" c2.2 = says P c!"cell_margin" := by rw [g2, if_neg (by decide), m1]
  have m3 : dget c!"cell_margin" c3.2 = says P c!"cell_margin" := by rw [g3, if_neg (by decide), m2]
  have or_getD : ∀ (a b : Option V) (v : V), a.getD (b.getD v) = (a.or b).getD v := by
    intro a b v
    cases a <;> rfl
  refine ⟨⟨?_, ?_, ?_, ?_, ?_⟩, ?_, ?_⟩
  · show (dget c!"cell_margin_top" s).getD _ = _
    rw [hf, hf, or_getD]
  · show (dget c!"cell_margin_right" c1.2).getD _ = _
    rw [m1, g1, if_neg (by decide), hf, or_getD]
  · show (dget c!"cell_margin_bottom" c2.2).getD _ = _
    rw [m2, g2, if_neg (by decide), g1, if_neg (by decide), hf, or_getD]
  · show (dget c!"cell_margin_left" c3.2).getD _ = _
    rw [m3, g3, if_neg (by decide), g2, if_neg (by decide), g1, if_neg (by decide), hf, or_getD]
  · show (dget c!"cell_fill" c5.2).getD _ = _
    rw [g5, if_neg (by decide), g4, if_neg (by decide), g3, if_neg (by decide), g2, if_neg (by decide), g1, if_neg (by decide), hf]
  · exact isDict_pop (isDict_pop (isDict_pop (isDict_pop (isDict_pop (isDict_pop h.dict _ _) _ _) _ _) _ _) _ _) _ _
  · intro k
    rw [says_hide, g6, g5, g4, g3, g2, g1, hf k]
    by_cases hk : k ∈ cellKeys
    · rw [if_pos hk]
      simp only [cellKeys, List.mem_cons, List.not_mem_nil, or_false] at hk
      rcases hk with rfl | rfl | rfl | rfl | rfl | rfl <;> simp
    · rw [if_neg hk]
      simp only [cellKeys, List.mem_cons, List.not_mem_nil, or_false, not_or] at hk
      obtain ⟨k1, k2, k3, k4, k5, k6⟩ := hk
      rw [if_neg k6, if_neg k1, if_neg k5, if_neg k4, if_neg k3, if_neg k2]

theorem cellStyleOf_keeps {X : StyleCtx V} (hX : FormatsDict X) {dot : Str} {st : StyleArg V} (hst : ArgDict st) {inh : List (Str × V)}
    {L : List (List (Str × V))} (h : KeepsKey inh L) {r : List (Str × V) × CellLook V} (e : cellStyleOf X (some dot) st inh = .ok r) :
    Meets X (.cell r.2) (.cell (given X st :: written X dot :: L)) ∧ KeepsKey r.1 (hide cellKeys (given X st :: written X dot :: L)) := by
  simp only [cellStyleOf] at e
  cases h1 : dotStyle X (some dot) with
  | error x => rw [h1] at e; cases e
  | ok d =>
    rw [h1] at e
    cases h2 : processStyle X st with
    | error x => rw [h2] at e; cases e
    | ok s =>
      rw [h2] at e
      cases e
      obtain rfl := dotStyle_ok h1
      obtain rfl := processStyle_ok h2
      exact cellRest_keeps ((h.update (written_strStyle X dot).1).update (given_dict hX hst))

theorem cellStyleOf_keeps' {X : StyleCtx V} (hX : FormatsDict X) {st : StyleArg V} (hst : ArgDict st) {inh : List (Str × V)}
    {L : List (List (Str × V))} (h : KeepsKey inh L) {r : List (Str × V) × CellLook V} (e : cellStyleOf X none st inh = .ok r) :
    Meets X (.cell r.2) (.cell (given X st :: L)) ∧ KeepsKey r.1 (hide cellKeys (given X st :: L)) := by
  simp only [cellStyleOf, dotStyle] at e
  cases h2 : processStyle X st with
  | error x => rw [h2] at e; cases e
  | ok s =>
    rw [h2] at e
    cases e
    obtain rfl := processStyle_ok h2
    exact cellRest_keeps (h.update (given_dict hX hst))

/-- what came out and what is to come out, one by one -/
inductive MeetAll (X : StyleCtx V) : List (SEvent V) → List (SWant V) → Prop
  | nil : MeetAll X [] []
  | cons {e w es ws} : Meets X e w → MeetAll X es ws → MeetAll X (e :: es) (w :: ws)

theorem MeetAll.append {X : StyleCtx V} {a c : List (SEvent V)} {b d : List (SWant V)} (h : MeetAll X a b) (h' : MeetAll X c d) :
    MeetAll X (a ++ c) (b ++ d) := by
  induction h with
  | nil => exact h'
  | cons h1 _ ih => exact .cons h1 ih

theorem bind_ok {α β : Type} {a : Except PyErr α} {f : α → Except PyErr β} {b : β} (h : (a >>= f) = .ok b) :
    ∃ x, a = .ok x ∧ f x = .ok b := by
  cases a with
  | error e => cases h
  | ok x => exact ⟨x, rfl, h⟩

theorem dot_in (X : StyleCtx V) (dot : Str) (s : List (Str × V)) (L : List (List (Str × V))) (k : Str)
    (h : says (s :: written X dot :: L) k = none) : dget k (written X dot) = none := by
  rw [says_cons, says_cons] at h
  cases h1 : dget k (written X dot) with
  | none => rfl
  | some v =>
    rw [h1] at h
    cases h2 : dget k s with
    | none => rw [h2] at h; cases h
    | some w => rw [h2] at h; cases h

theorem dot_in_hidden (X : StyleCtx V) (dot : Str) (s : List (Str × V)) (L : List (List (Str × V))) (k : Str)
    (h : says (hide cellKeys (s :: written X dot :: L)) k = none) : dget k (written X dot) = none := by
  by_cases hk : k ∈ textKeys
  · have : k ∉ cellKeys := by
      simp only [textKeys, List.mem_cons, List.not_mem_nil, or_false] at hk
      rcases hk with rfl | rfl | rfl | rfl | rfl | rfl | rfl | rfl <;> decide
    rw [says_hide, if_neg this] at h
    exact dot_in X dot s L k h
  · exact (written_strStyle X dot).2 k hk

mutual
theorem walkElem_meets {X : StyleCtx V} (hX : FormatsDict X) : ∀ {t : STree V} {inh : List (Str × V)} {L : List (List (Str × V))}
    {es : List (SEvent V)}, TreeDicts t → KeepsKey inh L → walkElem X inh t = .ok es → MeetAll X es (wantElem X L t)
  | .text dot st, inh, L, es, ht, h, e => by
    simp only [walkElem] at e
    obtain ⟨r, h1, e⟩ := bind_ok e
    obtain ⟨f, h2, e⟩ := bind_ok e
    cases e
    have k := elementStyles_keeps hX ht h h1
    exact .cons ⟨k.follows, textStyle_follows k (dot_in X dot _ L) h2⟩ .nil
  | .image st, inh, L, es, ht, h, e => by
    simp only [walkElem] at e
    obtain ⟨r, h1, e⟩ := bind_ok e
    cases e
    exact .cons (elementStyles_keeps' hX ht h h1).follows .nil
  | .table st cells, inh, L, es, ht, h, e => by
    simp only [walkElem] at e
    obtain ⟨r, h1, e⟩ := bind_ok e
    obtain ⟨t, h2, e⟩ := bind_ok e
    obtain ⟨a, h3, e⟩ := bind_ok e
    cases e
    obtain ⟨k1, k2⟩ := tableStyle_keeps (elementStyles_keeps' hX ht.1 h h1) h2
    exact .cons k1 (walkCells_meets hX ht.2 k2 h3)
  | .box st elems, inh, L, es, ht, h, e => by
    simp only [walkElem] at e
    obtain ⟨r, h1, e⟩ := bind_ok e
    obtain ⟨s, h2, e⟩ := bind_ok e
    have k := partStyle_keeps hX ht.1 (elementStyles_keeps' hX ht.1 h h1) h2
    refine walkElems_meets hX ht.2 (k.same fun k => ?_) e
    simp only [List.cons_append, says_cons]
    cases dget k (given X st) <;> rfl
  | .group st elems, inh, L, es, ht, h, e => by
    simp only [walkElem] at e
    obtain ⟨r, h1, e⟩ := bind_ok e
    exact walkGroup_meets hX ht.2 (elementStyles_keeps' hX ht.1 h h1) e

theorem walkElems_meets {X : StyleCtx V} (hX : FormatsDict X) : ∀ {l : List (STree V)} {inh : List (Str × V)} {L : List (List (Str × V))}
    {es : List (SEvent V)}, TreesDicts l → KeepsKey inh L → walkElems X inh l = .ok es → MeetAll X es (wantElems X L l)
  | [], inh, L, es, ht, h, e => by
    simp only [walkElems] at e
    cases e
    exact .nil
  | t :: l, inh, L, es, ht, h, e => by
    simp only [walkElems] at e
    obtain ⟨a, h1, e⟩ := bind_ok e
    obtain ⟨b, h2, e⟩ := bind_ok e
    cases e
    exact (walkElem_meets hX ht.1 h h1).append (walkElems_meets hX ht.2 h h2)

theorem walkGroup_meets {X : StyleCtx V} (hX : FormatsDict X) : ∀ {l : List (STree V)} {inh : List (Str × V)} {L : List (List (Str × V))}
    {es : List (SEvent V)}, TreesDicts l → KeepsKey inh L → walkGroup X inh l = .ok es → MeetAll X es (wantElems X L l)
  | [], inh, L, es, ht, h, e => by
    simp only [walkGroup] at e
    cases e
    exact .nil
  | t :: l, inh, L, es, ht, h, e => by
    simp only [walkGroup] at e
    obtain ⟨a, h1, e⟩ := bind_ok e
    obtain ⟨b, h2, e⟩ := bind_ok e
    cases e
    exact (walkGroupElem_meets hX ht.1 h h1).append (walkGroup_meets hX ht.2 h h2)

theorem walkGroupElem_meets {X : StyleCtx V} (hX : FormatsDict X) : ∀ {t : STree V} {inh : List (Str × V)} {L : List (List (Str × V))}
    {es : List (SEvent V)}, TreeDicts t → KeepsKey inh L → walkGroupElem X inh t = .ok es → MeetAll X es (wantElem X L t)
  | .text dot st, inh, L, es, ht, h, e => by
    simp only [walkGroupElem] at e
    obtain ⟨r, h1, e⟩ := bind_ok e
    obtain ⟨r2, h2, e⟩ := bind_ok e
    obtain ⟨f, h3, e⟩ := bind_ok e
    cases e
    have k := elementStyles_keeps hX ht h h1
    have k2 : KeepsKey r2.1 (given X st :: written X dot :: L) := by
      refine (elementStyles_keeps (st := .dict r.1) hX k.dict h h2).same fun q => ?_
      show says (r.1 :: written X dot :: L) q = _
      have := k.follows q
      rw [says_cons, this]
      simp only [says_cons]
      cases dget q (given X st) <;> cases dget q (written X dot) <;> cases says L q <;> rfl
    exact .cons ⟨k2.follows, textStyle_follows k2 (dot_in X dot _ L) h3⟩ .nil
  | .image st, inh, L, es, ht, h, e => by
    simp only [walkGroupElem] at e
    obtain ⟨r, h1, e⟩ := bind_ok e
    cases e
    exact .cons (elementStyles_keeps' hX ht h h1).follows .nil
  | .table st cells, inh, L, es, ht, h, e => by
    simp only [walkGroupElem] at e
    obtain ⟨r, h1, e⟩ := bind_ok e
    obtain ⟨t, h2, e⟩ := bind_ok e
    obtain ⟨a, h3, e⟩ := bind_ok e
    cases e
    obtain ⟨k1, k2⟩ := tableStyle_keeps (elementStyles_keeps' hX ht.1 h h1) h2
    exact .cons k1 (walkCells_meets hX ht.2 k2 h3)
  | .box st elems, inh, L, es, ht, h, e => by
    simp only [walkGroupElem] at e
    cases e
  | .group st elems, inh, L, es, ht, h, e => by
    simp only [walkGroupElem] at e
    cases e

theorem walkCells_meets {X : StyleCtx V} (hX : FormatsDict X) : ∀ {l : List (STree V)} {inh : List (Str × V)} {L : List (List (Str × V))}
    {es : List (SEvent V)}, TreesDicts l → KeepsKey inh L → walkCells X inh l = .ok es → MeetAll X es (wantCells X L l)
  | [], inh, L, es, ht, h, e => by
    simp only [walkCells] at e
    cases e
    exact .nil
  | t :: l, inh, L, es, ht, h, e => by
    simp only [walkCells] at e
    obtain ⟨a, h1, e⟩ := bind_ok e
    obtain ⟨b, h2, e⟩ := bind_ok e
    cases e
    exact (walkCell_meets hX ht.1 h h1).append (walkCells_meets hX ht.2 h h2)

theorem walkCell_meets {X : StyleCtx V} (hX : FormatsDict X) : ∀ {t : STree V} {inh : List (Str × V)} {L : List (List (Str × V))}
    {es : List (SEvent V)}, TreeDicts t → KeepsKey inh L → walkCell X inh t = .ok es → MeetAll X es (wantCell X L t)
  | .text dot st, inh, L, es, ht, h, e => by
    simp only [walkCell] at e
    obtain ⟨r, h1, e⟩ := bind_ok e
    obtain ⟨f, h2, e⟩ := bind_ok e
    cases e
    obtain ⟨k1, k2⟩ := cellStyleOf_keeps hX ht h h1
    exact .cons k1 (.cons ⟨k2.follows, textStyle_follows k2 (dot_in_hidden X dot _ L) h2⟩ .nil)
  | .image st, inh, L, es, ht, h, e => by
    simp only [walkCell] at e
    obtain ⟨r, h1, e⟩ := bind_ok e
    cases e
    exact .cons (cellStyleOf_keeps' hX ht h h1).1 .nil
  | .table st cells, inh, L, es, ht, h, e => by
    simp only [walkCell] at e
    obtain ⟨r, h1, e⟩ := bind_ok e
    obtain ⟨t, h2, e⟩ := bind_ok e
    obtain ⟨a, h3, e⟩ := bind_ok e
    cases e
    obtain ⟨k0, k⟩ := cellStyleOf_keeps' hX ht.1 h h1
    obtain ⟨k1, k2⟩ := tableStyle_keeps k h2
    exact .cons k0 (.cons k1 (walkCells_meets hX ht.2 k2 h3))
  | .box st elems, inh, L, es, ht, h, e => by
    simp only [walkCell] at e
    obtain ⟨r, h1, e⟩ := bind_ok e
    obtain ⟨s, h2, e⟩ := bind_ok e
    obtain ⟨a, h3, e⟩ := bind_ok e
    cases e
    obtain ⟨k0, k⟩ := cellStyleOf_keeps' hX ht.1 h h1
    refine .cons k0 (walkElems_meets hX ht.2 ?_ h3)
    refine (partStyle_keeps (st := .dict r.1) hX k.dict (L := []) ⟨isDict_nil, fun _ => rfl⟩ h2).same fun q => ?_
    show says (r.1 :: ([] ++ [boxLayer X])) q = _
    rw [says_cons, k.follows q, List.nil_append, ← says_append]
  | .group st elems, inh, L, es, ht, h, e => by
    simp only [walkCell] at e
    obtain ⟨r, h1, e⟩ := bind_ok e
    cases e
    exact .cons (cellStyleOf_keeps' hX ht.1 h h1).1 .nil
end

theorem defaultContentStyle_dict (D : PdfDefaults V) : IsDict (defaultContentStyle D) := by
  simp [IsDict, defaultContentStyle]

/-- C71 for a content box of a document -/
theorem C71_content_partial {X : StyleCtx V} (hX : FormatsDict X) (D : PdfDefaults V) {st : StyleArg V} (hst : ArgDict st)
    {elems : List (STree V)} (ht : TreesDicts elems) {es : List (SEvent V)} (e : walkContent X D st elems = .ok es) :
    MeetAll X es (wantElems X [given X st, defaultContentStyle D, boxLayer X] elems) := by
  simp only [walkContent] at e
  obtain ⟨s, h1, e1⟩ := bind_ok e
  obtain ⟨r, h2, e2⟩ := bind_ok e1
  have hs := processStyle_ok h1
  subst hs
  have k := (keeps_one (defaultContentStyle_dict D)).update (given_dict hX hst)
  have k2 : KeepsKey r [given X st, defaultContentStyle D, boxLayer X] := by
    refine (partStyle_keeps (st := .dict _) hX k.dict (L := []) ⟨isDict_nil, fun _ => rfl⟩ h2).same fun q => ?_
    show says (dupdate (defaultContentStyle D) (given X st) :: ([] ++ [boxLayer X])) q = _
    rw [says_cons, k.follows q, List.nil_append, ← says_append]
    rfl
  exact walkElems_meets hX ht k2 e2

/-- C71 for a table of a document -/
theorem C71_table_partial {X : StyleCtx V} (hX : FormatsDict X) (D : PdfDefaults V) {st : StyleArg V} (hst : ArgDict st)
    {cells : List (STree V)} (ht : TreesDicts cells) {es : List (SEvent V)} (e : walkTable X D st cells = .ok es) :
    MeetAll X es (.table [given X st, defaultContentStyle D]
      :: wantCells X (hide borderKeys [given X st, defaultContentStyle D] ++ [tableLayer X]) cells) := by
  simp only [walkTable] at e
  obtain ⟨s, h1, e⟩ := bind_ok e
  obtain ⟨t, h2, e⟩ := bind_ok e
  obtain ⟨a, h3, e⟩ := bind_ok e
  cases e
  obtain rfl := processStyle_ok h1
  obtain ⟨k1, k2⟩ := tableStyle_keeps ((keeps_one (defaultContentStyle_dict D)).update (given_dict hX hst)) h2
  exact .cons k1 (walkCells_meets hX ht k2 h3)

theorem processStyle_fine {X : StyleCtx V} {st : StyleArg V} (h : ArgFine X st) : ∃ e, processStyle X st = .ok e := by
  cases st with
  | none => exact ⟨_, rfl⟩
  | dict d => exact ⟨_, rfl⟩
  | other => exact h.elim
  | name s =>
    simp only [processStyle]
    cases hf : X.formats with
    | none => exact ⟨_, rfl⟩
    | some fs =>
      have := h fs hf
      simp only
      cases hg : dget s fs with
      | none => exact absurd this (dget_eq_none.1 hg)
      | some d => exact ⟨_, rfl⟩

theorem dotStyle_fine {X : StyleCtx V} {dot : Str} (h : ∃ d, parseStyleStr X.env dot = .ok d) : ∃ e, dotStyle X (some dot) = .ok e := by
  obtain ⟨d, h⟩ := h
  exact ⟨_, by simp only [dotStyle, h]; rfl⟩

theorem elementStyles_fine {X : StyleCtx V} {dot : Option Str} {st : StyleArg V} (hd : ∃ e, dotStyle X dot = .ok e) (h : ArgFine X st)
    (inh : List (Str × V)) : ∃ r, elementStyles X dot st inh = .ok r := by
  obtain ⟨d, h1⟩ := hd
  obtain ⟨e, h2⟩ := processStyle_fine h
  exact ⟨_, by simp only [elementStyles, h1, h2]; rfl⟩

theorem cellStyleOf_fine {X : StyleCtx V} {dot : Option Str} {st : StyleArg V} (hd : ∃ e, dotStyle X dot = .ok e) (h : ArgFine X st)
    (inh : List (Str × V)) : ∃ r, cellStyleOf X dot st inh = .ok r := by
  obtain ⟨d, h1⟩ := hd
  obtain ⟨e, h2⟩ := processStyle_fine h
  exact ⟨_, by simp only [cellStyleOf, h1, h2]; rfl⟩

theorem textStyle_fine {X : StyleCtx V} {dot : Option Str} (hd : ∃ e, dotStyle X dot = .ok e) (s : List (Str × V)) :
    ∃ r, textStyle X dot s = .ok r := by
  obtain ⟨d, h1⟩ := hd
  exact ⟨_, by simp only [textStyle, h1]; rfl⟩

theorem partStyle_fine {X : StyleCtx V} {st : StyleArg V} (h : ArgFine X st) (inh : List (Str × V)) : ∃ r, partStyle X inh st = .ok r := by
  obtain ⟨e, h2⟩ := processStyle_fine h
  exact ⟨_, by simp only [partStyle, h2]; rfl⟩

theorem tableStyle_fine (X : StyleCtx V) (d : List (Str × V)) : ∃ r, tableStyle X (.dict d) = .ok r := ⟨_, rfl⟩

theorem noDot_fine (X : StyleCtx V) : ∃ e, dotStyle X none = .ok e := ⟨_, rfl⟩

theorem bind_fine {α β : Type} {a : Except PyErr α} {f : α → Except PyErr β} {x : α} (h : a = .ok x) (h' : ∃ b, f x = .ok b) :
    ∃ b, (a >>= f) = .ok b := by
  subst h
  exact h'

mutual
theorem walkElem_fine {X : StyleCtx V} : ∀ {t : STree V} (inh : List (Str × V)), TreeFine X false t → ∃ es, walkElem X inh t = .ok es
  | .text dot st, inh, h => by
    obtain ⟨r, h1⟩ := elementStyles_fine (dotStyle_fine h.1) h.2 inh
    obtain ⟨f, h2⟩ := textStyle_fine (dotStyle_fine h.1) r.1
    simp only [walkElem]
    exact bind_fine h1 (bind_fine h2 ⟨_, rfl⟩)
  | .image st, inh, h => by
    obtain ⟨r, h1⟩ := elementStyles_fine (noDot_fine X) h inh
    simp only [walkElem]
    exact bind_fine h1 ⟨_, rfl⟩
  | .table st cells, inh, h => by
    obtain ⟨r, h1⟩ := elementStyles_fine (noDot_fine X) h.1 inh
    obtain ⟨t, h2⟩ := tableStyle_fine X r.1
    obtain ⟨a, h3⟩ := walkCells_fine t.style h.2
    simp only [walkElem]
    exact bind_fine h1 (bind_fine h2 (bind_fine h3 ⟨_, rfl⟩))
  | .box st elems, inh, h => by
    obtain ⟨r, h1⟩ := elementStyles_fine (noDot_fine X) h.2.1 inh
    obtain ⟨s, h2⟩ := partStyle_fine h.2.1 r.1
    simp only [walkElem]
    exact bind_fine h1 (bind_fine h2 (walkElems_fine s h.2.2))
  | .group st elems, inh, h => by
    obtain ⟨r, h1⟩ := elementStyles_fine (noDot_fine X) h.2.1 inh
    simp only [walkElem]
    exact bind_fine h1 (walkGroup_fine r.1 h.2.2)

theorem walkElems_fine {X : StyleCtx V} : ∀ {l : List (STree V)} (inh : List (Str × V)), TreesFine X false l → ∃ es, walkElems X inh l = .ok es
  | [], inh, h => by
    simp only [walkElems]
    exact ⟨_, rfl⟩
  | t :: l, inh, h => by
    obtain ⟨a, h1⟩ := walkElem_fine inh h.1
    obtain ⟨b, h2⟩ := walkElems_fine inh h.2
    simp only [walkElems]
    exact bind_fine h1 (bind_fine h2 ⟨_, rfl⟩)

theorem walkGroup_fine {X : StyleCtx V} : ∀ {l : List (STree V)} (inh : List (Str × V)), TreesFine X true l → ∃ es, walkGroup X inh l = .ok es
  | [], inh, h => by
    simp only [walkGroup]
    exact ⟨_, rfl⟩
  | t :: l, inh, h => by
    obtain ⟨a, h1⟩ := walkGroupElem_fine inh h.1
    obtain ⟨b, h2⟩ := walkGroup_fine inh h.2
    simp only [walkGroup]
    exact bind_fine h1 (bind_fine h2 ⟨_, rfl⟩)

theorem walkGroupElem_fine {X : StyleCtx V} : ∀ {t : STree V} (inh : List (Str × V)), TreeFine X true t → ∃ es, walkGroupElem X inh t = .ok es
  | .text dot st, inh, h => by
    obtain ⟨r0, h0⟩ := elementStyles_fine (dotStyle_fine h.1) h.2 inh
    obtain ⟨r, h1⟩ := elementStyles_fine (st := .dict r0.1) (dotStyle_fine h.1) trivial inh
    obtain ⟨f, h2⟩ := textStyle_fine (dotStyle_fine h.1) r.1
    simp only [walkGroupElem]
    exact bind_fine h0 (bind_fine h1 (bind_fine h2 ⟨_, rfl⟩))
  | .image st, inh, h => by
    obtain ⟨r, h1⟩ := elementStyles_fine (noDot_fine X) h inh
    simp only [walkGroupElem]
    exact bind_fine h1 ⟨_, rfl⟩
  | .table st cells, inh, h => by
    obtain ⟨r, h1⟩ := elementStyles_fine (noDot_fine X) h.1 inh
    obtain ⟨t, h2⟩ := tableStyle_fine X r.1
    obtain ⟨a, h3⟩ := walkCells_fine t.style h.2
    simp only [walkGroupElem]
    exact bind_fine h1 (bind_fine h2 (bind_fine h3 ⟨_, rfl⟩))
  | .box st elems, inh, h => nomatch h.1
  | .group st elems, inh, h => nomatch h.1

theorem walkCells_fine {X : StyleCtx V} : ∀ {l : List (STree V)} (inh : List (Str × V)), TreesFine X false l → ∃ es, walkCells X inh l = .ok es
  | [], inh, h => by
    simp only [walkCells]
    exact ⟨_, rfl⟩
  | t :: l, inh, h => by
    obtain ⟨a, h1⟩ := walkCell_fine inh h.1
    obtain ⟨b, h2⟩ := walkCells_fine inh h.2
    simp only [walkCells]
    exact bind_fine h1 (bind_fine h2 ⟨_, rfl⟩)

theorem walkCell_fine {X : StyleCtx V} : ∀ {t : STree V} (inh : List (Str × V)), TreeFine X false t → ∃ es, walkCell X inh t = .ok es
  | .text dot st, inh, h => by
    obtain ⟨r, h1⟩ := cellStyleOf_fine (dotStyle_fine h.1) h.2 inh
    obtain ⟨f, h2⟩ := textStyle_fine (dotStyle_fine h.1) r.1
    simp only [walkCell]
    exact bind_fine h1 (bind_fine h2 ⟨_, rfl⟩)
  | .image st, inh, h => by
    obtain ⟨r, h1⟩ := cellStyleOf_fine (noDot_fine X) h inh
    simp only [walkCell]
    exact bind_fine h1 ⟨_, rfl⟩
  | .table st cells, inh, h => by
    obtain ⟨r, h1⟩ := cellStyleOf_fine (noDot_fine X) h.1 inh
    obtain ⟨t, h2⟩ := tableStyle_fine X r.1
    obtain ⟨a, h3⟩ := walkCells_fine t.style h.2
    simp only [walkCell]
    exact bind_fine h1 (bind_fine h2 (bind_fine h3 ⟨_, rfl⟩))
  | .box st elems, inh, h => by
    obtain ⟨r, h1⟩ := cellStyleOf_fine (noDot_fine X) h.2.1 inh
    obtain ⟨s, h2⟩ := partStyle_fine (X := X) (st := .dict r.1) trivial []
    obtain ⟨a, h3⟩ := walkElems_fine s h.2.2
    simp only [walkCell]
    exact bind_fine h1 (bind_fine h2 (bind_fine h3 ⟨_, rfl⟩))
  | .group st elems, inh, h => by
    obtain ⟨r, h1⟩ := cellStyleOf_fine (noDot_fine X) h.2.1 inh
    simp only [walkCell]
    exact bind_fine h1 ⟨_, rfl⟩
end

/-- C71: nothing is refused that is fine -/
theorem C71_fine_partial {X : StyleCtx V} (D : PdfDefaults V) {st : StyleArg V} (hst : ArgFine X st) {elems : List (STree V)}
    (ht : TreesFine X false elems) : (∃ es, walkContent X D st elems = .ok es) ∧ ∃ es, walkTable X D st elems = .ok es := by
  obtain ⟨e, h1⟩ := processStyle_fine hst
  constructor
  · obtain ⟨r, h2⟩ := partStyle_fine (X := X) (st := .dict (dupdate (defaultContentStyle D) e)) trivial []
    simp only [walkContent]
    exact bind_fine h1 (bind_fine h2 (walkElems_fine r ht))
  · obtain ⟨t, h2⟩ := tableStyle_fine X (dupdate (defaultContentStyle D) e)
    obtain ⟨a, h3⟩ := walkCells_fine t.style ht
    simp only [walkTable]
    exact bind_fine h1 (bind_fine h2 (bind_fine h3 ⟨_, rfl⟩))

/-! Values for the examples. -/

inductive ExVal
  | sv (v : StyleVal)
  | none
  | num (q : Rat)
  | str (s : Str)
  deriving DecidableEq

def exCtx : StyleCtx ExVal :=
  ⟨⟨fun s => if s = c!"20" then some 20 else none, fun s => s = c!"Times"⟩, .sv, .none, .num, .str,
    some [(c!"small", [(c!"s", .num 8)]), (c!"tight", [(c!"cell_margin", .num 1)])]⟩

def exDefaults : PdfDefaults ExVal := ⟨.str c!"Helvetica", .num 11, .num 0, .str c!"l", .num (11/10), .num 0⟩

/-- the numbers to be compared: size and left margin of the texts, sides of the cells, width of the borders -/
def exShow : SEvent ExVal → List (Option ExVal)
  | .text s f => [dget c!"margin_left" s, dget c!"s" f]
  | .image s => [dget c!"margin_left" s]
  | .table t => [some t.width]
  | .cell c => [some c.top, some c.left]

/-- a document with a box in a cell of a table in a box: the sizes and margins of everything -/
example : (walkContent exCtx exDefaults (.dict [(c!"margin_left", .num 3)])
    [.text c!"b;s:20" (.name c!"small"), .text c!"s:20" .none, .text [] .none,
     .table (.dict [(c!"border_width", .num 2), (c!"s", .num 9)]) [.text [] (.name c!"tight"), .box .none [.text [] .none, .table .none [.text [] .none]]]]).toOption.map
      (fun es => es.map exShow)
    = some [[some (.num 3), some (.num 8)], [some (.num 3), some (.sv (.num 20))], [some (.num 3), some (.num 11)],
      [some (.num 2)], [some (.num 1), some (.num 1)], [some (.num 3), some (.num 9)],
      [some (.num 5), some (.num 5)], [some (.num 3), some (.num 9)], [some (.num (1/2))], [some (.num 5), some (.num 5)], [some (.num 3), some (.num 9)]] := by
  decide +kernel

example : TreesFine exCtx false [.text c!"b;s:20" (.name c!"small"), .group .none [.text [] .none]] :=
  ⟨⟨⟨_, rfl⟩, by rintro fs ⟨⟩; simp⟩, ⟨rfl, trivial, ⟨⟨_, rfl⟩, trivial⟩, trivial⟩, trivial⟩

/-- a box in a group is refused -/
example : (walkContent exCtx exDefaults .none [.group .none [.box .none []]]).toOption.map List.length = none := by decide +kernel

/-- C71 does not hold of the margins of cells: a cell says 20 for all its sides, but has 1 at the top, which the table says for all cells -/
theorem C71_cell_margin_false : ∃ (table cell : StyleArg ExVal) (es : List (SEvent ExVal)),
    walkTable exCtx exDefaults table [.text [] cell] = .ok es ∧
    dget c!"cell_margin" (given exCtx cell) = some (.num 20) ∧ dget c!"cell_margin_top" (given exCtx cell) = none ∧
    ∃ t c s f, es = [.table t, .cell c, .text s f] ∧ c.left = .num 20 ∧ c.top = .num 1 :=
  ⟨.dict [(c!"cell_margin_top", .num 1)], .dict [(c!"cell_margin", .num 20)], _, rfl, rfl, rfl, _, _, _, _, rfl, rfl, rfl⟩

/-- the left margin of a table is a margin of the elements of a box in one of its cells again -/
theorem C71_margin_twice : ∃ es t c s f,
    walkContent exCtx exDefaults .none [.table (.dict [(c!"margin_left", .num 50)]) [.box .none [.text [] .none]]] = .ok es ∧
    es = [.table t, .cell c, .text s f] ∧ dget c!"margin_left" s = some (.num 50) :=
  ⟨_, _, _, _, _, rfl, rfl, rfl⟩

end Verif
