import Verif.Lemmas.Nest
import Verif.Spec.Order
/-! Tables and boxes inside each other: the order in which things are shown. Two tags are looked at, `k` and `k'`; what belongs to `k` is marked with `false`, what belongs to
`k'` with `true`. -/
namespace Verif
open Spec

/-! ### lists with two marks -/

variable {Λ Q σ B C X Y L : Type}

/-- first all that is marked with `false` -/
def twoLists (F T : List Y) : List (Bool × Y) := F.map (fun a => (false, a)) ++ T.map fun a => (true, a)

theorem twoLists_nil : twoLists ([] : List Y) [] = [] := rfl

/-- labels `q0` and `p0` have everything: the first one what is marked with `false` -/
theorem two_labels [DecidableEq L] (t : List (L × X)) (g : X → List (Bool × Y)) (F T : L → List Y) (q0 p0 : L) (hF : ∀ q, q ≠ q0 → F q = []) (hT : ∀ p, p ≠ p0 → T p = [])
    (hp : ∀ p, ((t.filter (·.1 = p)).map Prod.snd).flatMap g <+: twoLists (F p) (T p))
    (ho : q0 ≠ p0 → F q0 ≠ [] → T p0 ≠ [] → (t.Pairwise fun a b => ¬ (a.1 = p0 ∧ b.1 = q0)) ∧
      ((∃ a ∈ t, a.1 = p0) → ((t.filter (·.1 = q0)).map Prod.snd).flatMap g = twoLists (F q0) (T q0))) :
    (t.map Prod.snd).flatMap g <+: twoLists (F q0) (T p0) ∧
    ((∀ p, ((t.filter (·.1 = p)).map Prod.snd).flatMap g = twoLists (F p) (T p)) → (t.map Prod.snd).flatMap g = twoLists (F q0) (T p0)) := by
  by_cases hpq : q0 = p0
  · subst hpq
    rw [labels_single t g (fun p => twoLists (F p) (T p)) q0 hp fun p h => by simp only [hF p h, hT p h]; rfl]
    exact ⟨hp q0, fun h => h q0⟩
  by_cases hF0 : F q0 = []
  · rw [labels_single t g (fun p => twoLists (F p) (T p)) p0 hp fun p h => by
      have : F p = [] := by
        by_cases hq : p = q0
        · rw [hq, hF0]
        · exact hF p hq
      simp only [this, hT p h]
      rfl]
    rw [hF0, ← hF p0 (Ne.symm hpq)]
    exact ⟨hp p0, fun h => h p0⟩
  by_cases hT0 : T p0 = []
  · rw [labels_single t g (fun p => twoLists (F p) (T p)) q0 hp fun p h => by
      have : T p = [] := by
        by_cases hq : p = p0
        · rw [hq, hT0]
        · exact hT p hq
      simp only [this, hF p h]
      rfl]
    rw [hT0, ← hT q0 hpq]
    exact ⟨hp q0, fun h => h q0⟩
  obtain ⟨h1, h2⟩ := ho hpq hF0 hT0
  have hFp : F p0 = [] := hF p0 (Ne.symm hpq)
  have hTq : T q0 = [] := hT q0 hpq
  have h0 : ∀ e ∈ t, e.1 ≠ p0 → e.1 ≠ q0 → g e.2 = [] := by
    intro e he hn1 hn2
    have := hp e.1
    rw [hF _ hn2, hT _ hn1, twoLists_nil, List.prefix_nil, List.flatMap_eq_nil_iff] at this
    exact this e.2 (List.mem_map_of_mem (List.mem_filter.2 ⟨he, by simp⟩))
  have key : (t.map Prod.snd).flatMap g = ((t.filter (·.1 = q0)).map Prod.snd).flatMap g ++ ((t.filter (·.1 = p0)).map Prod.snd).flatMap g := by
    clear hp h2 ho
    induction t with
    | nil => rfl
    | cons e t ih =>
      rw [List.pairwise_cons] at h1
      have ih := ih h1.2 fun e he => h0 e (List.mem_cons_of_mem _ he)
      by_cases hq : e.1 = q0
      · have hne : ¬ e.1 = p0 := fun h => hpq (hq.symm.trans h)
        rw [List.filter_cons_of_pos (by simpa using hq), List.filter_cons_of_neg (by simpa using hne), List.map_cons, List.flatMap_cons, ih, List.map_cons, List.flatMap_cons,
          List.append_assoc]
      · by_cases hp : e.1 = p0
        · have : t.filter (·.1 = q0) = [] := by
            rw [List.filter_eq_nil_iff]
            intro b hb hbq
            exact h1.1 b hb ⟨hp, by simpa using hbq⟩
          rw [List.filter_cons_of_neg (by simpa using hq), List.filter_cons_of_pos (by simpa using hp), this, List.map_cons, List.flatMap_cons, ih, this]
          simp
        · rw [List.filter_cons_of_neg (by simpa using hq), List.filter_cons_of_neg (by simpa using hp), List.map_cons, List.flatMap_cons, ih, h0 e List.mem_cons_self hp hq]
          rfl
  rw [key]
  have hpq' := hp q0
  have hpp' := hp p0
  rw [hTq] at hpq'
  rw [hFp] at hpp'
  have e1 : twoLists (F q0) [] = (F q0).map fun a => (false, a) := by simp [twoLists]
  have e2 : twoLists [] (T p0) = (T p0).map fun a => (true, a) := by simp [twoLists]
  rw [e1] at hpq'
  rw [e2] at hpp'
  constructor
  · by_cases hex : ∃ a ∈ t, a.1 = p0
    · rw [h2 hex, hTq, e1]
      exact (List.prefix_append_right_inj _).2 hpp'
    · have : t.filter (·.1 = p0) = [] := by
        rw [List.filter_eq_nil_iff]
        intro b hb hbq
        exact hex ⟨b, hb, by simpa using hbq⟩
      rw [this]
      simp only [List.map_nil, List.flatMap_nil, List.append_nil]
      exact hpq'.trans (List.prefix_append _ _)
  · intro h
    rw [h q0, h p0, hTq, hFp, e1, e2]
    rfl

/-! ### the two tags -/

/-- what a part shows of two tags -/
def patoms (pa : Q → List LAtom) (k k' : Nat) (p : TagPart Q) : List (Bool × CAtom LAtom) := twoLists (natoms pa k p) (natoms pa k' p)

/-- what a content holds of two tags -/
def Spec.NSpec.both (S : NSpec σ) (k k' : Nat) (c : σ) : List (Bool × CAtom LAtom) := twoLists (S.total k c) (S.total k' c)

/-- contents with a further condition -/
def Spec.NSpec.where (S : NSpec σ) (sep : σ → Prop) : NSpec σ := { S with fit := fun c w => S.fit c w ∧ sep c }

/-- in a box nothing with tag `k'` comes before something with tag `k` -/
def elsSep (tags : σ → List Nat) (inner : σ → Prop) (els : List (CEl σ)) (k k' : Nat) : Prop :=
  (∀ c st, .leaf c st ∈ els → inner c) ∧
    ∀ (i : Nat) e, els[i]? = some e → k' ∈ elTags tags e → ∀ (i' : Nat) e', els[i']? = some e' → k ∈ elTags tags e' → (i' < i ∧ flows e' = false) ∨ i' = i

/-- the same in a table -/
def rowsSep (tags : σ → List Nat) (inner : σ → Prop) (content : List (List (Option (Cell σ C)))) (k k' : Nat) : Prop :=
  (∀ (i j : Nat) c x, cellAt content i j = some c → c.content = some x → inner x) ∧
    ∀ (i j : Nat) c, cellAt content i j = some c → k' ∈ restOf tags c.content → ∀ (i' j' : Nat) c', cellAt content i' j' = some c' → k ∈ restOf tags c'.content →
      i' < i ∨ (i' = i ∧ j' = j)

def nodeSep (tags : σ → List Nat) (inner : σ → Prop) (k k' : Nat) : Node Λ σ B C → Prop
  | .leaf _ _ => True
  | .table D _ => rowsSep tags inner D.content k k'
  | .box _ els _ => elsSep tags inner els k k'

def nestSep (k k' : Nat) : (n : Nat) → Nest Λ B C n → Prop
  | 0, c => c.elim
  | n + 1, c => nodeSep (nestTags n) (nestSep k k' n) k k' (c : Node Λ (Nest Λ B C n) B C)

section
variable {pa : Q → List LAtom} {K : LSpec Λ} {leaf : Λ → Rat → Rat → Rat → Rat → Except PyErr (CellOut Λ Q B C)} {S : NSpec σ} {exec : σ → Rat → Rat → Rat → Rat → Except PyErr (CellOut σ (TagPart Q) B C)}
variable {k k' : Nat} {sep : σ → Prop}

/-- the contents show what they hold of two tags in order -/
structure PGood (pa : Q → List LAtom) (S : NSpec σ) (exec : σ → Rat → Rat → Rat → Rat → Except PyErr (CellOut σ (TagPart Q) B C)) (sep : σ → Prop) (k k' : Nat) : Prop where
  rest : ∃ rest : σ → List (Bool × CAtom LAtom), Honest (guard (S.where sep) exec) (patoms pa k k') rest ∧ ∀ c, S.fresh c → rest c = S.both k k' c
  next : ∀ c x y w h o, exec c x y w h = .ok o → sep c → sep o.next
  void : ∀ c, S.void c → sep c

theorem NGood.restrict (G : NGood pa S exec) (next : ∀ c x y w h o, exec c x y w h = .ok o → sep c → sep o.next) (void : ∀ c, S.void c → sep c) :
    NGood pa (S.where sep) exec where
  rest := by
    obtain ⟨rest, H, hf⟩ := G.rest
    have key : ∀ {c x y w h o}, guard (S.where sep) exec c x y w h = .ok o → guard S exec c x y w h = .ok o := by
      intro c x y w h o ho
      obtain ⟨h1, h2⟩ := guard_ok ho
      unfold guard
      rw [if_pos h1.1, h2]
    exact ⟨rest, fun k => ⟨fun c x y w h o ho => (H k).step _ _ _ _ _ _ (key ho), fun c x y w h o ho => (H k).done _ _ _ _ _ _ (key ho),
      fun c x y w h o ho => (H k).zero _ _ _ _ _ _ (key ho)⟩, hf⟩
  next := fun c x y w h o w' h1 ho h2 => ⟨G.next c x y w h o w' h1.1 ho h2.1, next _ _ _ _ _ _ ho h2.2⟩
  void := fun c hc => ⟨fun w => ⟨(G.void c hc).1 w, void c hc⟩, (G.void c hc).2⟩
  tags := G.tags

theorem flatMap_unique {α : Type} {l : List α} {T : α → List Nat} (hn : (l.flatMap T).Nodup) {i j : Nat} {a b : α} (ha : l[i]? = some a) (hb : l[j]? = some b)
    (ka : k ∈ T a) (kb : k ∈ T b) : i = j := by
  induction l generalizing i j with
  | nil => cases ha
  | cons x l ih =>
    rw [List.flatMap_cons, List.nodup_append] at hn
    obtain ⟨n1, n2, n3⟩ := hn
    rcases i with _ | i <;> rcases j with _ | j
    · rfl
    · cases ha
      exact absurd rfl (n3 k ka k (List.mem_flatMap.2 ⟨b, List.mem_of_getElem? (by simpa using hb), kb⟩))
    · cases hb
      exact absurd rfl (n3 k kb k (List.mem_flatMap.2 ⟨a, List.mem_of_getElem? (by simpa using ha), ka⟩))
    · exact congrArg (· + 1) (ih n2 (by simpa using ha) (by simpa using hb))

/-! ### boxes -/

theorem boxFit_where {els : List (CEl σ)} {Ws : List Rat} (hb : BoxFit S els Ws) (hs : ∀ c st, .leaf c st ∈ els → sep c) : BoxFit (S.where sep) els Ws :=
  ⟨hb.tidy, hb.fresh, fun c st he W hW => ⟨hb.fits c st he W hW, hs c st he⟩, hb.tags⟩

/-- the atoms of a part of a box -/
def twoJoin (k k' : Nat) : CAtom (Bool × CAtom LAtom) → List (Bool × CAtom LAtom)
  | .text a => [a]
  | .image n => twoLists (if n = k then [.image n] else []) (if n = k' then [.image n] else [])

theorem twoJoin_text (l : List (Bool × CAtom LAtom)) : (l.map CAtom.text).flatMap (twoJoin k k') = l := by
  induction l with
  | nil => rfl
  | cons a l ih => simp [twoJoin, ih]

theorem twoJoin_atoms (ps : List (CPart (TagPart Q))) : (ps.map CPart.join).flatMap (patoms pa k k') = (ps.flatMap (boxAtoms (patoms pa k k'))).flatMap (twoJoin k k') := by
  induction ps with
  | nil => rfl
  | cons p ps ih =>
    rw [List.map_cons, List.flatMap_cons, List.flatMap_cons, List.flatMap_append, ih]
    congr 1
    cases p with
    | leaf p => rw [boxAtoms, twoJoin_text]; rfl
    | image n x y w h => simp [boxAtoms, twoJoin, CPart.join, patoms, natoms]

theorem elTags_eq (S : NSpec σ) (e : CEl σ) : S.elTags e = elTags S.tags e := by
  cases e <;> rfl

/-- what a box shows of two tags -/
theorem box_shows_two (G : NGood pa S exec) (P : PGood pa S exec sep k k') {els : List (CEl σ)} {Ws : List Rat} (hb : BoxFit S els Ws)
    (hs : elsSep S.tags sep els k k') {fuel : Nat} {gap : Option Rat} {rects : List (Rat × Rat × Rat × Rat)}
    (hW : ∀ r ∈ rects, r.2.2.1 ∈ Ws) {ps : List (CPart (TagPart Q))} {s : CContent σ (TagPart Q) B C} (hr : (CContent.new 1 gap els).runs exec fuel rects = .ok (ps, s)) :
    (ps.map CPart.join).flatMap (patoms pa k k') <+: twoLists (els.flatMap (S.elTotal k)) (els.flatMap (S.elTotal k')) ∧
    (s.finished = true → (ps.map CPart.join).flatMap (patoms pa k k') = twoLists (els.flatMap (S.elTotal k)) (els.flatMap (S.elTotal k'))) := by
  obtain ⟨rest, H, hfresh⟩ := P.rest
  have G' := G.restrict P.next P.void
  have hb' := boxFit_where hb hs.1
  rw [← box_same G' hb' fuel gap hW] at hr
  obtain ⟨t, a1, a0, a2, a3, a4⟩ := C35_content_partial (guard (S.where sep) exec) (patoms pa k k') rest H 1 gap els (fun e he => elTidy_flat (hb.tidy e he)) fuel rects ps s hr
  have htag : ∀ k, ∀ e ∈ els, S.elTotal k e ≠ [] → k ∈ S.elTags e := by
    intro k e _ hne
    cases e with
    | leaf c st => exact G.tags k c hne
    | image i =>
      simp only [NSpec.elTotal] at hne
      split at hne
      · rename_i h; simp [NSpec.elTags, h]
      · exact absurd rfl hne
    | group l t st => exact absurd rfl hne
    | child => exact absurd rfl hne
  obtain ⟨q0, f1, f2⟩ := single_list (k := k) els (S.elTotal k) S.elTags hb.tags (htag k)
  obtain ⟨p0, t1, t2⟩ := single_list (k := k') els (S.elTotal k') S.elTags hb.tags (htag k')
  have hat : ∀ i, (atomsAt rest els i).flatMap (twoJoin k k') = twoLists (((els[i]?).map (S.elTotal k)).getD []) (((els[i]?).map (S.elTotal k')).getD []) := by
    intro i
    unfold atomsAt
    cases he : els[i]? with
    | none => rfl
    | some e =>
      have hm := List.mem_of_getElem? he
      simp only [Option.map_some, Option.getD_some]
      cases e with
      | leaf c st => rw [elAtoms, twoJoin_text, hfresh c (hb.fresh c st hm)]; rfl
      | image i => simp [elAtoms, twoJoin, NSpec.elTotal]
      | group l t st => rfl
      | child => rfl
  have key := two_labels t (twoJoin k k') (fun i => ((els[i]?).map (S.elTotal k)).getD []) (fun i => ((els[i]?).map (S.elTotal k')).getD []) q0 p0
    (by
      intro i hi
      cases he : els[i]? with
      | none => rfl
      | some e => exact f1 i hi e he)
    (by
      intro i hi
      cases he : els[i]? with
      | none => rfl
      | some e => exact t1 i hi e he)
    (by
      intro i
      rw [← hat i]
      exact flatMap_prefix _ (a2 i))
    (by
      intro hne hF hT
      cases he : els[q0]? with
      | none => rw [he] at hF; exact absurd rfl hF
      | some e =>
        rw [he] at hF
        cases he' : els[p0]? with
        | none => rw [he'] at hT; exact absurd rfl hT
        | some e' =>
          rw [he'] at hT
          have k1 := htag k e (List.mem_of_getElem? he) hF
          have k2 := htag k' e' (List.mem_of_getElem? he') hT
          rw [elTags_eq] at k1 k2
          rcases hs.2 p0 e' he' k2 q0 e he k1 with ⟨hlt, hfl⟩ | hlt
          · have hfl' : flowsAt els q0 = false := by
              unfold flowsAt
              rw [he]
              exact hfl
            refine ⟨?_, ?_⟩
            · refine List.Pairwise.imp ?_ a0
              rintro a b (h | h) ⟨rfl, rfl⟩
              · omega
              · rw [hfl'] at h; cases h
            · rintro ⟨a, ha, rfl⟩
              have := a4 a ha q0 hlt hfl'
              unfold ofElement at this
              rw [this, hat, he]
          · exact absurd hlt hne)
  rw [a1, ← twoJoin_atoms, ← f2, ← t2] at key
  exact ⟨key.1, fun hf => key.2 fun i => by rw [← hat i, ← a3 hf i]; rfl⟩

/-! ### tables -/

theorem tableFit_where {D : TabData σ B C} {Ws : List Rat} (hD : TableFit S D Ws)
    (hs : ∀ i j c x, cellAt D.content i j = some c → c.content = some x → sep x) : TableFit (S.where sep) D Ws :=
  ⟨hD.spans, hD.rows, hD.border, hD.style, hD.cells, hD.cols, hD.blank, hD.fresh, fun i j c x hc hx W hW i' => ⟨hD.fits i j c x hc hx W hW i', hs i j c x hc hx⟩, hD.tags⟩

theorem table_shows_two [DecidableEq B] (G : NGood pa S exec) (P : PGood pa S exec sep k k') {D : TabData σ B C} {Ws : List Rat} (hD : TableFit S D Ws)
    (hs : rowsSep S.tags sep D.content k k') {rects : List (Rat × Rat × Rat × Rat)}
    (hW : ∀ r ∈ rects, r.2.2.1 ∈ Ws) {ps : List (TagPart Q)} {s : TS σ (TagPart Q) B C} (hr : (TS.new 0 0 0 0).runs (D.conf exec) rects = .ok (ps, s)) :
    ps.flatMap (patoms pa k k') <+: (S.node K B C).both k k' (.table D rects) ∧
    (s.finished = true → ps.flatMap (patoms pa k k') = (S.node K B C).both k k' (.table D rects)) := by
  obtain ⟨rest, H, hfresh⟩ := P.rest
  obtain ⟨v1, v2, v3⟩ := G.void _ hD.blank
  have G' := G.restrict P.next P.void
  have hD' := tableFit_where hD hs.1
  rw [← (table_same G' hD' hW).1] at hr
  obtain ⟨t, a1, a2, a3, a4⟩ := C33_cells_partial (D.conf (guard (S.where sep) exec)) (patoms pa k k') rest H (show rest D.blank = [] by rw [hfresh _ v2, NSpec.both, v3, v3]; rfl) hD.spans
    ⟨hD.border, hD.style, hD.cells⟩ hD.cols (fun j c hc => hD.rows 0 j c hc) 0 0 0 0 rects ps s hr
  obtain ⟨a4, a5⟩ := a4 hD.rows
  have hcell : ∀ i j, cellAtoms rest (D.conf (guard (S.where sep) exec)).content i j =
      twoLists (cellAtoms (S.total k) D.content i j) (cellAtoms (S.total k') D.content i j) := by
    intro i j
    show cellAtoms rest D.content i j = _
    unfold cellAtoms
    cases hc : cellAt D.content i j with
    | none => rfl
    | some c =>
      cases hx : c.content with
      | none => simp [hx, restOf, twoLists]
      | some x => simp [hx, restOf, hfresh x (hD.fresh i j c x hc hx), NSpec.both]
  simp only [hcell] at a2 a3 a5
  obtain ⟨q0, f1, f2⟩ := table_place (K := K) G.tags hD.tags rects k
  obtain ⟨p0, t1, t2⟩ := table_place (K := K) G.tags hD.tags rects k'
  have flat1 : ∀ l : List (Bool × CAtom LAtom), l.flatMap (fun a => [a]) = l := by
    intro l
    induction l with
    | nil => rfl
    | cons a l ih => simp
  have htag : ∀ k i j, cellAtoms (S.total k) D.content i j ≠ [] → ∃ c, cellAt D.content i j = some c ∧ k ∈ restOf S.tags c.content := by
    intro k i j h
    unfold cellAtoms at h
    cases hc : cellAt D.content i j with
    | none => rw [hc] at h; exact absurd rfl h
    | some c =>
      rw [hc] at h
      refine ⟨c, rfl, ?_⟩
      cases hx : c.content with
      | none => rw [Option.bind_some, hx] at h; exact absurd rfl h
      | some x =>
        rw [Option.bind_some, hx] at h
        exact G.tags k x h
  have key := two_labels t (fun a => [a]) (fun p => cellAtoms (S.total k) D.content p.1 p.2) (fun p => cellAtoms (S.total k') D.content p.1 p.2) q0 p0 f1 t1
    (by
      intro p
      rw [flat1]
      exact a2 p.1 p.2)
    (by
      intro hne hF hT
      obtain ⟨c, c1, c2⟩ := htag k _ _ hF
      obtain ⟨c', c1', c2'⟩ := htag k' _ _ hT
      rcases hs.2 _ _ c' c1' c2' _ _ c c1 c2 with hlt | ⟨h1, h2⟩
      · refine ⟨?_, ?_⟩
        · rw [List.pairwise_map] at a4
          refine List.Pairwise.imp ?_ a4
          rintro a b h ⟨rfl, rfl⟩
          omega
        · rintro ⟨a, ha, rfl⟩
          rw [flat1]
          exact a5 a ha _ hlt _
      · exact absurd (Prod.ext h1 h2) hne)
  rw [flat1, a1, ← f2, ← t2] at key
  exact ⟨key.1, fun hf => key.2 fun p => by rw [flat1]; exact a3 hf p.1 p.2⟩

/-! ### both -/

theorem twoLists_eq_nil {F T : List Y} (h1 : F = []) (h2 : T = []) : twoLists F T = [] := by
  rw [h1, h2, twoLists_nil]

theorem patoms_nil {ps : List (TagPart Q)} (h1 : ps.flatMap (natoms pa k) = []) (h2 : ps.flatMap (natoms pa k') = []) : ps.flatMap (patoms pa k k') = [] := by
  rw [List.flatMap_eq_nil_iff] at h1 h2 ⊢
  exact fun p hp => twoLists_eq_nil (h1 p hp) (h2 p hp)

/-- what a thing has not shown yet of two tags -/
def nodeRestTwo [DecidableEq B] (pa : Q → List LAtom) (K : LSpec Λ) (lrest : Λ → List LAtom) (S : NSpec σ) (fuel : Nat) (exec : σ → Rat → Rat → Rat → Rat → Except PyErr (CellOut σ (TagPart Q) B C)) (k k' : Nat) :
    Node Λ σ B C → List (Bool × CAtom LAtom)
  | .leaf t l => twoLists (if t = k then (lrest l).map .text else []) (if t = k' then (lrest l).map .text else [])
  | .table D rects => match (TS.new 0 0 0 0).runs (D.conf exec) rects with
    | .error _ => []
    | .ok (ps, _) => ((S.node K B C).both k k' (.table D rects)).drop (ps.flatMap (patoms pa k k')).length
  | .box gap els rects => match (CContent.new 1 gap els).runs exec fuel rects with
    | .error _ => []
    | .ok (ps, _) => (twoLists (els.flatMap (S.elTotal k)) (els.flatMap (S.elTotal k'))).drop ((ps.map CPart.join).flatMap (patoms pa k k')).length

theorem ptag_atoms (t : Nat) (ps : List Q) (hk : k ≠ k') : (ps.map fun p => (.leaf (t, p) : TagPart Q)).flatMap (patoms pa k k') =
    twoLists (if t = k then (ps.flatMap pa).map .text else []) (if t = k' then (ps.flatMap pa).map .text else []) := by
  induction ps with
  | nil => split <;> split <;> rfl
  | cons p ps ih =>
    rw [List.map_cons, List.flatMap_cons, ih]
    by_cases h1 : t = k
    · have h2 : ¬ t = k' := fun h => hk (h1.symm.trans h)
      simp [patoms, natoms, h1, hk, twoLists]
    · by_cases h2 : t = k'
      · have : ¬ k' = k := fun h => hk h.symm
        simp [patoms, natoms, h2, this, twoLists]
      · simp [patoms, natoms, h1, h2, twoLists]

theorem node_honest_two [DecidableEq B] {lrest : Λ → List LAtom} (HL : Honest (lguard K leaf) pa lrest) (fuel : Nat) (G : NGood pa S exec) (P : PGood pa S exec sep k k') (hk : k ≠ k') :
    Honest (guard ((S.node K B C).where (nodeSep S.tags sep k k')) (nodeExec leaf fuel exec)) (patoms pa k k') (nodeRestTwo pa K lrest S fuel exec k k') := by
  have hwid : ∀ {rects : List (Rat × Rat × Rat × Rat)} {w : Rat}, ∀ r ∈ rects, r.2.2.1 ∈ w :: rects.map (·.2.2.1) :=
    fun r hr => List.mem_cons_of_mem _ (List.mem_map_of_mem hr)
  refine ⟨?_, ?_, ?_⟩
  · intro c x y w h o ho
    obtain ⟨⟨hfit, hsep⟩, ho⟩ := guard_ok ho
    cases c with
    | leaf tag l =>
      obtain ⟨o', h1, rfl⟩ := tagExec_ok ho
      have := HL.step l x y w h o' ((lguard_eq hfit x y h).trans h1)
      simp only [ptag_atoms tag o'.parts hk, nodeRestTwo]
      by_cases h1 : tag = k
      · have h2 : ¬ tag = k' := fun h => hk (h1.symm.trans h)
        simp [h1, hk, twoLists, ← this]
      · by_cases h2 : tag = k'
        · subst h2
          simp [h1, twoLists, ← this]
        · simp [h1, h2, twoLists]
    | table D rects =>
      have hfit : TableFit S D (w :: rects.map (·.2.2.1)) := hfit
      obtain ⟨ps, s, h1, ⟨-, rfl⟩ | ⟨s', h2, h3, rfl⟩⟩ := tableExec_cases ho
      · rfl
      · simp only [nodeRestTwo, h1, h3]
        have h4 := (table_shows_two (K := K) G P hfit hsep mem_widths h3).1
        rw [List.flatMap_append] at h4 ⊢
        exact drop_next h4
    | box gap els rects =>
      have hfit : BoxFit S els (w :: rects.map (·.2.2.1)) := hfit
      obtain ⟨ps, s, h1, ⟨-, rfl⟩ | ⟨s', -, h2, h3, rfl⟩⟩ := boxExec_cases ho
      · rfl
      · simp only [nodeRestTwo, h1, h3]
        have h4 := (box_shows_two G P hfit hsep mem_widths h3).1
        rw [List.map_append, List.flatMap_append] at h4 ⊢
        exact drop_next h4
  · intro c x y w h o ho hfin
    obtain ⟨⟨hfit, hsep⟩, ho⟩ := guard_ok ho
    cases c with
    | leaf tag l =>
      obtain ⟨o', h1, rfl⟩ := tagExec_ok ho
      have := HL.done l x y w h o' ((lguard_eq hfit x y h).trans h1) hfin
      simp [nodeRestTwo, this, twoLists]
    | table D rects =>
      have hfit : TableFit S D (w :: rects.map (·.2.2.1)) := hfit
      obtain ⟨ps, s, h1, ⟨hs, rfl⟩ | ⟨s', h2, h3, rfl⟩⟩ := tableExec_cases ho
      · simp only [nodeRestTwo, h1]
        rw [(table_shows_two (K := K) G P hfit hsep hwid h1).2 hs, List.drop_length]
      · simp only [nodeRestTwo, h3]
        rw [(table_shows_two (K := K) G P hfit hsep mem_widths h3).2 hfin]
        exact List.drop_length
    | box gap els rects =>
      have hfit : BoxFit S els (w :: rects.map (·.2.2.1)) := hfit
      obtain ⟨ps, s, h1, ⟨hs, rfl⟩ | ⟨s', -, h2, h3, rfl⟩⟩ := boxExec_cases ho
      · simp only [nodeRestTwo, h1]
        rw [(box_shows_two G P hfit hsep hwid h1).2 hs, List.drop_length]
      · simp only [nodeRestTwo, h3]
        rw [(box_shows_two G P hfit hsep mem_widths h3).2 hfin, List.drop_length]
  · intro c x y w h o ho hh
    obtain ⟨⟨hfit, hsep⟩, ho⟩ := guard_ok ho
    have zero : ∀ k, o.parts.flatMap (natoms pa k) = [] := by
      intro k
      refine (node_honest HL fuel G k).zero c x y w h o ?_ hh
      unfold guard
      rw [if_pos hfit, ho]
    exact patoms_nil (zero k) (zero k')

theorem node_pgood [DecidableEq B] (GL : LGood pa K leaf) (fuel : Nat) (G : NGood pa S exec) (P : PGood pa S exec sep k k') (hk : k ≠ k') :
    PGood pa (S.node K B C) (nodeExec leaf fuel exec) (nodeSep S.tags sep k k') k k' where
  rest := by
    obtain ⟨lrest, HL, hfr⟩ := GL.rest
    refine ⟨nodeRestTwo pa K lrest S fuel exec k k', node_honest_two HL fuel G P hk, fun c hc => ?_⟩
    cases c with
    | leaf t l =>
      simp only [nodeRestTwo, hfr l hc]
      rfl
    | table D rects =>
      have : rects = [] := hc
      subst this
      rfl
    | box gap els rects =>
      have : rects = [] := hc
      subst this
      rfl
  next := by
    intro c x y w h o ho hs
    cases c with
    | leaf tag l =>
      obtain ⟨o', h3, rfl⟩ := tagExec_ok ho
      trivial
    | table D rects =>
      obtain ⟨ps, s, -, ⟨-, rfl⟩ | ⟨s', -, -, rfl⟩⟩ := tableExec_cases ho <;> exact hs
    | box gap els rects =>
      obtain ⟨ps, s, -, ⟨-, rfl⟩ | ⟨s', -, -, -, rfl⟩⟩ := boxExec_cases ho <;> exact hs
  void := by
    intro c hc
    cases c with
    | leaf t l => trivial
    | table D rects => exact hc.elim
    | box gap els rects => exact hc.elim

theorem nestTags_eq (K : LSpec Λ) (n : Nat) : (nestSpec K B C n).tags = nestTags n := by
  induction n with
  | zero => funext c; exact c.elim
  | succ n ih =>
    funext c
    show ((nestSpec K B C n).node K B C).tags (c : Node Λ (Nest Λ B C n) B C) = nestTags (n + 1) c
    cases hc : (c : Node Λ (Nest Λ B C n) B C) with
    | leaf t l => subst hc; rfl
    | table D r =>
      subst hc
      simp only [NSpec.node, NSpec.tableTags, ih]
      rfl
    | box g els r =>
      subst hc
      simp only [NSpec.node]
      show els.flatMap _ = els.flatMap _
      congr 1
      funext e
      rw [elTags_eq, ih]

/-- contents of every depth show what they hold of two tags in order -/
theorem nest_pgood [DecidableEq B] (GL : LGood pa K leaf) (fuel : Nat) (hk : k ≠ k') (n : Nat) : PGood pa (nestSpec K B C n) (nestExec leaf fuel n) (nestSep k k' n) k k' := by
  induction n with
  | zero => exact ⟨⟨fun c => c.elim, ⟨fun c => c.elim, fun c => c.elim, fun c => c.elim⟩, fun c => c.elim⟩, fun c => c.elim, fun c => c.elim⟩
  | succ n ih =>
    have := node_pgood GL fuel (nest_good GL fuel n) ih hk
    rw [nestTags_eq] at this
    exact this

/-! ### what comes first -/

theorem elsSep_trivial {tags : σ → List Nat} {inner : σ → Prop} {els : List (CEl σ)} (hi : ∀ c st, .leaf c st ∈ els → inner c)
    (h : k ∉ els.flatMap (elTags tags) ∨ k' ∉ els.flatMap (elTags tags)) : elsSep tags inner els k k' := by
  refine ⟨hi, fun i e he h1 i' e' he' h2 => ?_⟩
  rcases h with h | h
  · exact absurd (List.mem_flatMap.2 ⟨e', List.mem_of_getElem? he', h2⟩) h
  · exact absurd (List.mem_flatMap.2 ⟨e, List.mem_of_getElem? he, h1⟩) h

theorem cell_mem {tags : σ → List Nat} {content : List (List (Option (Cell σ C)))} {i j : Nat} {c : Cell σ C} (hc : cellAt content i j = some c) :
    ∃ row, content[i]? = some row ∧ row[j]? = some (some c) := by
  unfold cellAt at hc
  cases hr : content[i]? with
  | none => rw [hr] at hc; cases hc
  | some row =>
    rw [hr] at hc
    refine ⟨row, rfl, ?_⟩
    rw [Option.bind_some] at hc
    cases hx : row[j]? with
    | none => rw [hx] at hc; cases hc
    | some x => rw [hx] at hc; simpa using hc

/-- the tags of the cells of a table -/
def rowsTags (tags : σ → List Nat) (content : List (List (Option (Cell σ C)))) : List Nat :=
  content.flatMap fun row => row.flatMap fun c => restOf tags (c.bind (·.content))

theorem cell_tags {tags : σ → List Nat} {content : List (List (Option (Cell σ C)))} {i j : Nat} {c : Cell σ C} (hc : cellAt content i j = some c) (h : k ∈ restOf tags c.content) :
    k ∈ rowsTags tags content := by
  obtain ⟨row, h1, h2⟩ := cell_mem (tags := tags) hc
  exact List.mem_flatMap.2 ⟨row, List.mem_of_getElem? h1, List.mem_flatMap.2 ⟨some c, List.mem_of_getElem? h2, h⟩⟩

theorem cell_unique {tags : σ → List Nat} {content : List (List (Option (Cell σ C)))} (hn : (rowsTags tags content).Nodup) {i j i' j' : Nat} {c c' : Cell σ C}
    (hc : cellAt content i j = some c) (hc' : cellAt content i' j' = some c') (h : k ∈ restOf tags c.content) (h' : k ∈ restOf tags c'.content) : i = i' ∧ j = j' := by
  obtain ⟨row, h1, h2⟩ := cell_mem (tags := tags) hc
  obtain ⟨row', h1', h2'⟩ := cell_mem (tags := tags) hc'
  have m1 : k ∈ row.flatMap fun c => restOf tags (c.bind (·.content)) := List.mem_flatMap.2 ⟨some c, List.mem_of_getElem? h2, h⟩
  have m2 : k ∈ row'.flatMap fun c => restOf tags (c.bind (·.content)) := List.mem_flatMap.2 ⟨some c', List.mem_of_getElem? h2', h'⟩
  have e : i = i' := flatMap_unique hn h1 h1' m1 m2
  subst e
  rw [h1] at h1'
  cases h1'
  have hrow : (row.flatMap fun c => restOf tags (c.bind (·.content))).Nodup := by
    obtain ⟨a, b, hab⟩ := List.append_of_mem (List.mem_of_getElem? h1)
    unfold rowsTags at hn
    rw [hab, List.flatMap_append, List.flatMap_cons] at hn
    exact (List.nodup_append.1 (List.nodup_append.1 hn).2.1).1
  exact ⟨rfl, flatMap_unique hrow h2 h2' h h'⟩

theorem cell_nodup {tags : σ → List Nat} {content : List (List (Option (Cell σ C)))} (hn : (rowsTags tags content).Nodup) {i j : Nat} {c : Cell σ C} (hc : cellAt content i j = some c) :
    (restOf tags c.content).Nodup := by
  obtain ⟨row, h1, h2⟩ := cell_mem (tags := tags) hc
  obtain ⟨a, b, hab⟩ := List.append_of_mem (List.mem_of_getElem? h1)
  unfold rowsTags at hn
  rw [hab, List.flatMap_append, List.flatMap_cons] at hn
  have hrow := (List.nodup_append.1 (List.nodup_append.1 hn).2.1).1
  obtain ⟨a, b, hab⟩ := List.append_of_mem (List.mem_of_getElem? h2)
  rw [hab, List.flatMap_append, List.flatMap_cons] at hrow
  exact (List.nodup_append.1 (List.nodup_append.1 hrow).2.1).1

theorem el_nodup {tags : σ → List Nat} {els : List (CEl σ)} (hn : (els.flatMap (elTags tags)).Nodup) {e : CEl σ} (he : e ∈ els) : (elTags tags e).Nodup := by
  obtain ⟨a, b, hab⟩ := List.append_of_mem he
  rw [hab, List.flatMap_append, List.flatMap_cons] at hn
  exact (List.nodup_append.1 (List.nodup_append.1 hn).2.1).1

theorem rowsSep_trivial {tags : σ → List Nat} {inner : σ → Prop} {content : List (List (Option (Cell σ C)))}
    (hi : ∀ i j c x, cellAt content i j = some c → c.content = some x → inner x) (h : k ∉ rowsTags tags content ∨ k' ∉ rowsTags tags content) : rowsSep tags inner content k k' := by
  refine ⟨hi, fun i j c hc h1 i' j' c' hc' h2 => ?_⟩
  rcases h with h | h
  · exact absurd (cell_tags hc' h2) h
  · exact absurd (cell_tags hc h1) h

/-- without one of the two tags there is nothing to be said -/
theorem nestSep_trivial : ∀ (n : Nat) (c : Nest Λ B C n), (k ∉ nestTags n c ∨ k' ∉ nestTags n c) → nestSep k k' n c
  | 0, c, _ => c.elim
  | n + 1, c, h => by
    cases c with
    | leaf t l => trivial
    | table D r =>
      refine rowsSep_trivial (fun i j c x hc hx => nestSep_trivial n x ?_) h
      refine h.imp (fun h hk => h (cell_tags hc ?_)) fun h hk => h (cell_tags hc ?_) <;> (rw [hx]; exact hk)
    | box g els r =>
      refine elsSep_trivial (fun c st hc => nestSep_trivial n c ?_) h
      exact h.imp (fun h hk => h (List.mem_flatMap.2 ⟨_, hc, hk⟩)) fun h hk => h (List.mem_flatMap.2 ⟨_, hc, hk⟩)

theorem elsBefore_tags {tags : σ → List Nat} {inner : σ → Prop} (hi : ∀ c, inner c → k ∈ tags c ∧ k' ∈ tags c) {els : List (CEl σ)} (h : elsBefore tags inner els k k') :
    k ∈ els.flatMap (elTags tags) ∧ k' ∈ els.flatMap (elTags tags) := by
  rcases h with ⟨i, i', e, e', -, h1, h2, -, h3, h4⟩ | ⟨c, st, hc, h⟩
  · exact ⟨List.mem_flatMap.2 ⟨e, List.mem_of_getElem? h1, h3⟩, List.mem_flatMap.2 ⟨e', List.mem_of_getElem? h2, h4⟩⟩
  · exact ⟨List.mem_flatMap.2 ⟨_, hc, (hi c h).1⟩, List.mem_flatMap.2 ⟨_, hc, (hi c h).2⟩⟩

theorem rowsBefore_tags {tags : σ → List Nat} {inner : σ → Prop} (hi : ∀ c, inner c → k ∈ tags c ∧ k' ∈ tags c) {content : List (List (Option (Cell σ C)))}
    (h : rowsBefore tags inner content k k') : k ∈ rowsTags tags content ∧ k' ∈ rowsTags tags content := by
  rcases h with ⟨i, i', j, j', c, c', -, h1, h2, h3, h4⟩ | ⟨i, j, c, x, hc, hx, h⟩
  · exact ⟨cell_tags h1 h3, cell_tags h2 h4⟩
  · exact ⟨cell_tags hc (by rw [hx]; exact (hi x h).1), cell_tags hc (by rw [hx]; exact (hi x h).2)⟩

theorem nestBefore_tags : ∀ (n : Nat) (c : Nest Λ B C n), nestBefore k k' n c → k ∈ nestTags n c ∧ k' ∈ nestTags n c
  | 0, c, _ => c.elim
  | n + 1, c, h => by
    cases c with
    | leaf t l => exact h.elim
    | table D r => exact rowsBefore_tags (nestBefore_tags n) h
    | box g els r => exact elsBefore_tags (nestBefore_tags n) h

theorem elsBefore_sep {tags : σ → List Nat} {before sep : σ → Prop} (hb : ∀ c, before c → k ∈ tags c ∧ k' ∈ tags c) (hs : ∀ c, (k ∉ tags c ∨ k' ∉ tags c) → sep c)
    {els : List (CEl σ)} (hi : ∀ c st, .leaf c st ∈ els → before c → sep c) (hn : (els.flatMap (elTags tags)).Nodup) (h : elsBefore tags before els k k') : elsSep tags sep els k k' := by
  rcases h with ⟨i, i', e, e', hlt, h1, h2, hf, h3, h4⟩ | ⟨c, st, hc, h⟩
  · constructor
    · intro c st hc
      refine hs c (Classical.not_and_iff_not_or_not.1 fun hh => ?_)
      obtain ⟨m, hm, hm'⟩ := List.getElem_of_mem hc
      have hm'' := List.getElem?_eq_some_iff.2 ⟨hm, hm'⟩
      have e1 := flatMap_unique hn h1 hm'' h3 hh.1
      have e2 := flatMap_unique hn h2 hm'' h4 hh.2
      omega
    · intro m x hx hk' m' x' hx' hk
      have e1 := flatMap_unique hn h1 hx' h3 hk
      have e2 := flatMap_unique hn h2 hx h4 hk'
      subst e1
      subst e2
      rw [h1] at hx'
      cases hx'
      exact Or.inl ⟨hlt, hf⟩
  · obtain ⟨p, hp, hp'⟩ := List.getElem_of_mem hc
    have hpc := List.getElem?_eq_some_iff.2 ⟨hp, hp'⟩
    obtain ⟨b1, b2⟩ := hb c h
    constructor
    · intro d st' hd
      by_cases hh : k ∈ tags d ∧ k' ∈ tags d
      · obtain ⟨m, hm, hm'⟩ := List.getElem_of_mem hd
        have hm'' := List.getElem?_eq_some_iff.2 ⟨hm, hm'⟩
        have e1 := flatMap_unique hn hpc hm'' b1 hh.1
        subst e1
        rw [hpc] at hm''
        cases hm''
        exact hi _ _ hd h
      · exact hs d (Classical.not_and_iff_not_or_not.1 hh)
    · intro m x hx hk' m' x' hx' hk
      have e1 := flatMap_unique hn hpc hx' b1 hk
      have e2 := flatMap_unique hn hpc hx b2 hk'
      exact Or.inr (by omega)

theorem rowsBefore_sep {tags : σ → List Nat} {before sep : σ → Prop} (hb : ∀ c, before c → k ∈ tags c ∧ k' ∈ tags c) (hs : ∀ c, (k ∉ tags c ∨ k' ∉ tags c) → sep c)
    {content : List (List (Option (Cell σ C)))} (hi : ∀ i j c x, cellAt content i j = some c → c.content = some x → before x → sep x) (hn : (rowsTags tags content).Nodup)
    (h : rowsBefore tags before content k k') : rowsSep tags sep content k k' := by
  rcases h with ⟨i, i', j, j', c, c', hlt, h1, h2, h3, h4⟩ | ⟨i, j, c, x, hc, hx, h⟩
  · constructor
    · intro m n d x hd hx
      refine hs x (Classical.not_and_iff_not_or_not.1 fun hh => ?_)
      have e1 := cell_unique hn h1 hd h3 (by rw [hx]; exact hh.1)
      have e2 := cell_unique hn h2 hd h4 (by rw [hx]; exact hh.2)
      omega
    · intro m n d hd hk' m' n' d' hd' hk
      have e1 := cell_unique hn h1 hd' h3 hk
      have e2 := cell_unique hn h2 hd h4 hk'
      exact Or.inl (by omega)
  · obtain ⟨b1, b2⟩ := hb x h
    have b1 : k ∈ restOf tags c.content := by rw [hx]; exact b1
    have b2 : k' ∈ restOf tags c.content := by rw [hx]; exact b2
    constructor
    · intro m n d y hd hy
      by_cases hh : k ∈ tags y ∧ k' ∈ tags y
      · obtain ⟨e1, e2⟩ := cell_unique hn hc hd b1 (by rw [hy]; exact hh.1)
        subst e1
        subst e2
        rw [hc] at hd
        cases hd
        rw [hx] at hy
        cases hy
        exact hi _ _ _ _ hc hx h
      · exact hs y (Classical.not_and_iff_not_or_not.1 hh)
    · intro m n d hd hk' m' n' d' hd' hk
      have e1 := cell_unique hn hc hd' b1 hk
      have e2 := cell_unique hn hc hd b2 hk'
      exact Or.inr (by omega)

theorem nestBefore_sep : ∀ (n : Nat) (c : Nest Λ B C n), (nestTags n c).Nodup → nestBefore k k' n c → nestSep k k' n c
  | 0, c, _, _ => c.elim
  | n + 1, c, hn, h => by
    cases c with
    | leaf t l => trivial
    | table D r =>
      refine rowsBefore_sep (nestBefore_tags n) (nestSep_trivial n) (fun i j c x hc hx hb => nestBefore_sep n x ?_ hb) hn h
      have := cell_nodup (tags := nestTags n) hn hc
      rw [hx] at this
      exact this
    | box g els r => exact elsBefore_sep (nestBefore_tags n) (nestSep_trivial n) (fun c st hc hb => nestBefore_sep n c (el_nodup (tags := nestTags n) hn hc) hb) hn h

/-- nothing comes before itself -/
theorem elsBefore_ne {tags : σ → List Nat} {before : σ → Prop} {els : List (CEl σ)} (hi : ∀ c st, .leaf c st ∈ els → before c → k ≠ k')
    (hn : (els.flatMap (elTags tags)).Nodup) (h : elsBefore tags before els k k') : k ≠ k' := by
  rintro rfl
  rcases h with ⟨i, i', e, e', hlt, h1, h2, hf, h3, h4⟩ | ⟨c, st, hc, h⟩
  · have := flatMap_unique hn h1 h2 h3 h4
    omega
  · exact hi _ _ hc h rfl

theorem rowsBefore_ne {tags : σ → List Nat} {before : σ → Prop} {content : List (List (Option (Cell σ C)))}
    (hi : ∀ i j c x, cellAt content i j = some c → c.content = some x → before x → k ≠ k') (hn : (rowsTags tags content).Nodup) (h : rowsBefore tags before content k k') : k ≠ k' := by
  rintro rfl
  rcases h with ⟨i, i', j, j', c, c', hlt, h1, h2, h3, h4⟩ | ⟨i, j, c, x, hc, hx, h⟩
  · have := cell_unique hn h1 h2 h3 h4
    omega
  · exact hi _ _ _ _ hc hx h rfl

theorem nestBefore_ne : ∀ (n : Nat) (c : Nest Λ B C n), (nestTags n c).Nodup → nestBefore k k' n c → k ≠ k'
  | 0, c, _, _ => c.elim
  | n + 1, c, hn, h => by
    cases c with
    | leaf t l => exact h.elim
    | table D r =>
      refine rowsBefore_ne (fun i j c x hc hx hb => nestBefore_ne n x ?_ hb) hn h
      have := cell_nodup (tags := nestTags n) hn hc
      rw [hx] at this
      exact this
    | box g els r => exact elsBefore_ne (fun c st hc hb => nestBefore_ne n c (el_nodup (tags := nestTags n) hn hc) hb) hn h

/-! ### parts in order -/

/-- parts in order -/
def PartsOrder (pa : Q → List LAtom) (before : Nat → Nat → Prop) (ps : List (TagPart Q)) : Prop :=
  (∀ k, ¬ before k k) ∧ ps.Pairwise fun p q => ∀ k k', before k k' → natoms pa k' p ≠ [] → natoms pa k q = []

theorem two_pairwise {F T : List Y} {l : List (Bool × Y)} (h : l <+: twoLists F T) : l.Pairwise fun a b => a.1 = true → b.1 = true := by
  refine List.Pairwise.sublist h.sublist ?_
  unfold twoLists
  rw [List.pairwise_append]
  refine ⟨?_, ?_, ?_⟩
  · rw [List.pairwise_map]
    exact List.pairwise_of_forall fun a b h => by cases h
  · rw [List.pairwise_map]
    exact List.pairwise_of_forall fun a b _ => rfl
  · intro a ha b hb _
    obtain ⟨x, -, rfl⟩ := List.mem_map.1 hb
    rfl

theorem two_filter {pa : Q → List LAtom} {k k' : Nat} (ps : List (TagPart Q)) :
    ((ps.flatMap (patoms pa k k')).filter fun x => !x.1).map Prod.snd = ps.flatMap (natoms pa k) ∧
    ((ps.flatMap (patoms pa k k')).filter fun x => x.1).map Prod.snd = ps.flatMap (natoms pa k') := by
  induction ps with
  | nil => exact ⟨rfl, rfl⟩
  | cons p ps ih =>
    simp only [List.flatMap_cons, List.filter_append, List.map_append, ih.1, ih.2]
    constructor <;> simp [patoms, twoLists, List.filter_map, Function.comp_def]

/-- when something of `k'` is shown, `k` has been shown -/
theorem two_complete {pa : Q → List LAtom} {k k' : Nat} {ps : List (TagPart Q)} {F T : List (CAtom LAtom)} (h : ps.flatMap (patoms pa k k') <+: twoLists F T)
    {a : CAtom LAtom} (ha : a ∈ ps.flatMap (natoms pa k')) : ps.flatMap (natoms pa k) = F := by
  obtain ⟨t, ht⟩ := h
  rw [← (two_filter (k' := k') ps).1]
  rw [← (two_filter (k := k) ps).2] at ha
  obtain ⟨x, hx, -⟩ := List.mem_map.1 ha
  obtain ⟨h1, h2⟩ := List.mem_filter.1 hx
  have ht' := ht
  unfold twoLists at ht'
  rcases List.append_eq_append_iff.1 ht' with ⟨as, e1, e2⟩ | ⟨bs, e1, e2⟩
  · have hm : x ∈ F.map fun a => (false, a) := by rw [e1]; exact List.mem_append.2 (Or.inl h1)
    obtain ⟨y, -, rfl⟩ := List.mem_map.1 hm
    cases h2
  · rw [e1]
    have : ∀ y ∈ bs, y.1 = true := by
      intro y hy
      have : y ∈ T.map fun a => (true, a) := by rw [e2]; exact List.mem_append.2 (Or.inl hy)
      obtain ⟨z, -, rfl⟩ := List.mem_map.1 this
      rfl
    have hb : bs.filter (fun x => !x.1) = [] := by
      rw [List.filter_eq_nil_iff]
      intro y hy
      simp [this y hy]
    rw [List.filter_append, hb]
    simp [List.filter_map, Function.comp_def]

theorem partsOrder_of {before : Nat → Nat → Prop} {ps : List (TagPart Q)} (h0 : ∀ k k', before k k' → k ≠ k')
    (h : ∀ k k', before k k' → ∃ F T, ps.flatMap (patoms pa k k') <+: twoLists F T) : PartsOrder pa before ps := by
  refine ⟨fun k hk => h0 k k hk rfl, ?_⟩
  rw [List.pairwise_iff_forall_sublist]
  intro p q hs k k' hb h1
  obtain ⟨F, T, hp⟩ := h k k' hb
  have h2 := (List.pairwise_flatMap.1 (two_pairwise hp)).2
  have h3 := (List.pairwise_iff_forall_sublist.1 h2) hs
  by_contra hq
  obtain ⟨a, ha⟩ := List.exists_mem_of_ne_nil _ h1
  obtain ⟨b, hb'⟩ := List.exists_mem_of_ne_nil _ hq
  have := h3 (true, a) (List.mem_append.2 (Or.inr (List.mem_map_of_mem ha))) (false, b) (List.mem_append.2 (Or.inl (List.mem_map_of_mem hb'))) rfl
  cases this

/-- the tag of a part -/
def tagOf : TagPart Q → Nat
  | .leaf p => p.1
  | .image n _ _ _ _ => n

theorem keeps_order {A : Type} {before : Nat → Nat → Prop} {ps : List (TagPart Q)} (h : PartsOrder pa before ps) {f : TagPart Q → List A}
    (hf : ∀ p, f p ≠ [] → natoms pa (tagOf p) p ≠ []) : KeepsOrder before (ps.flatMap fun p => (f p).map fun a => (tagOf p, a)) := by
  unfold KeepsOrder
  rw [List.pairwise_flatMap]
  constructor
  · intro p _
    rw [List.pairwise_map]
    exact List.pairwise_of_forall fun a b => h.1 _
  · refine List.Pairwise.imp ?_ h.2
    intro p q hpq x hx y hy hb
    obtain ⟨a, ha, rfl⟩ := List.mem_map.1 hx
    obtain ⟨b, hb', rfl⟩ := List.mem_map.1 hy
    exact hf q (List.ne_nil_of_mem hb') (hpq _ _ hb (hf p (List.ne_nil_of_mem ha)))

/-- the parts of a box are in order -/
theorem box_order [DecidableEq B] (GL : LGood pa K leaf) {fuel n : Nat} {els : List (CEl (Nest Λ B C n))} {Ws : List Rat} (hb : BoxFit (nestSpec K B C n) els Ws) {gap : Option Rat}
    {rects : List (Rat × Rat × Rat × Rat)} (hW : ∀ r ∈ rects, r.2.2.1 ∈ Ws) {ps : List (CPart (TagPart Q))} {s : CContent (Nest Λ B C n) (TagPart Q) B C}
    (hr : (CContent.new 1 gap els).runs (nestExec leaf fuel n) fuel rects = .ok (ps, s)) :
    PartsOrder pa (fun k k' => elsBefore (nestTags n) (nestBefore k k' n) els k k') (ps.map CPart.join) := by
  have hn := hb.tags
  rw [funext (elTags_eq _), nestTags_eq] at hn
  have hin : ∀ c st, .leaf c st ∈ els → (nestTags n c).Nodup := fun c st hc => el_nodup (tags := nestTags n) hn hc
  have hne : ∀ k k', elsBefore (nestTags n) (nestBefore k k' n) els k k' → k ≠ k' := fun k k' h =>
    elsBefore_ne (fun c st hc hb => nestBefore_ne n c (hin c st hc) hb) hn h
  refine partsOrder_of hne fun k k' h => ?_
  have hs := elsBefore_sep (nestBefore_tags n) (nestSep_trivial n) (fun c st hc hb => nestBefore_sep n c (hin c st hc) hb) hn h
  rw [← nestTags_eq K] at hs
  exact ⟨_, _, (box_shows_two (nest_good GL fuel n) (nest_pgood GL fuel (hne k k' h) n) hb hs hW hr).1⟩

/-- the parts of a table are in order -/
theorem table_order [DecidableEq B] (GL : LGood pa K leaf) {fuel n : Nat} {D : TabData (Nest Λ B C n) B C} {Ws : List Rat} (hD : TableFit (nestSpec K B C n) D Ws)
    {rects : List (Rat × Rat × Rat × Rat)} (hW : ∀ r ∈ rects, r.2.2.1 ∈ Ws) {ps : List (TagPart Q)} {s : TS (Nest Λ B C n) (TagPart Q) B C}
    (hr : (TS.new 0 0 0 0).runs (D.conf (nestExec leaf fuel n)) rects = .ok (ps, s)) :
    PartsOrder pa (fun k k' => rowsBefore (nestTags n) (nestBefore k k' n) D.content k k') ps := by
  have hn := hD.tags
  unfold NSpec.tableTags at hn
  rw [nestTags_eq] at hn
  have hin : ∀ i j c x, cellAt D.content i j = some c → c.content = some x → (nestTags n x).Nodup := by
    intro i j c x hc hx
    have := cell_nodup (tags := nestTags n) hn hc
    rw [hx] at this
    exact this
  have hne : ∀ k k', rowsBefore (nestTags n) (nestBefore k k' n) D.content k k' → k ≠ k' := fun k k' h =>
    rowsBefore_ne (fun i j c x hc hx hb => nestBefore_ne n x (hin i j c x hc hx) hb) hn h
  refine partsOrder_of hne fun k k' h => ?_
  have hs := rowsBefore_sep (nestBefore_tags n) (nestSep_trivial n) (fun i j c x hc hx hb => nestBefore_sep n x (hin i j c x hc hx) hb) hn h
  rw [← nestTags_eq K] at hs
  exact ⟨_, _, (table_shows_two (K := K) (nest_good GL fuel n) (nest_pgood GL fuel (hne k k' h) n) hD hs hW hr).1⟩

end
end Verif
